import Verif.Props.Compare

/-! C180: the text shown for a syntactic difference is its own. -/

set_option autoImplicit false

namespace DK
open Spec

/-- The text shown for bodies `l` and `r` of a macro. -/
def Spec.TwoBodies (l r t : Str) : Prop := t = str! "  " ++ l ++ str! "\n\n  " ++ r ++ str! "\n"

/-! ### The last object with a name wins -/

/-- An object for a syntactic difference with the given name. -/
def SynNamed (n : Str) (o : Obj) : Prop := o.first.kind = .syntactic ∧ o.first.name = n

theorem objDiff_syn_ne {env : FDEnv} {acc : PairAcc} {k : Kind} {o : Obj} {d : Option Str}
    (hs : o.first.kind = .syntactic) (h : objDiff env acc k o = .ok d) : d ≠ some [] := by
  unfold objDiff at h
  split at h
  · rw [hs] at h
    simp only at h
    split at h
    · cases h
    · split at h
      · cases h
      · cases h
        simp [bodiesText]
  · cases h; simp

theorem compareObjs_last {env : FDEnv} {acc : PairAcc} : ∀ (os : List Obj) (r r' : Res), Keyed r →
    compareObjs env acc r os = (r', .ok ()) → ∀ x ∈ r'.inner.values,
      (x ∈ r.inner.values ∧ ∀ o ∈ os, ¬ SynNamed x.first.name o) ∨
      ∃ os1 o os2 k d, os = os1 ++ o :: os2 ∧ x = .mk k o.first o.second d none [] ∧ objDiff env acc k o = .ok d ∧
        ∀ o' ∈ os2, ¬ SynNamed o.first.name o'
  | [], r, r', _, h, x, hx => by
    simp only [compareObjs, Prod.mk.injEq, and_true] at h
    subst h
    exact Or.inl ⟨hx, by simp⟩
  | o :: os, r, r', hkey, h, x, hx => by
    unfold compareObjs at h
    cases hk : objKind env o with
    | error y => rw [hk] at h; simp at h
    | ok k =>
      rw [hk] at h
      simp only at h
      cases hd : objDiff env acc k o with
      | error y => rw [hd] at h; simp at h
      | ok d =>
        rw [hd] at h
        simp only at h
        split at h
        · next hc =>
          rcases compareObjs_last os r r' hkey h x hx with ⟨a, b⟩ | ⟨os1, o', os2, k', d', e1, e2, e3, e4⟩
          · refine Or.inl ⟨a, ?_⟩
            intro o' ho'
            rw [List.mem_cons] at ho'
            rcases ho' with rfl | ho'
            · intro hs
              exact objDiff_syn_ne hs.1 hd hc.2
            · exact b o' ho'
          · exact Or.inr ⟨o :: os1, o', os2, k', d', by rw [e1]; rfl, e2, e3, e4⟩
        · rcases compareObjs_last os _ r' (keyed_addInner hkey) h x hx with ⟨a, b⟩ | ⟨os1, o', os2, k', d', e1, e2, e3, e4⟩
          · have a' : x ∈ Dict.values (Dict.set r.inner o.first.name (.mk k o.first o.second d none [])) := a
            obtain ⟨p, hp, hpx⟩ := List.mem_map.1 a'
            rw [Dict.mem_set hkey.1] at hp
            rcases hp with rfl | ⟨hp, hne⟩
            · dsimp only at hpx
              subst hpx
              exact Or.inr ⟨[], o, os, k, d, rfl, rfl, hd, b⟩
            · refine Or.inl ⟨List.mem_map.2 ⟨p, hp, hpx⟩, ?_⟩
              intro o' ho'
              rw [List.mem_cons] at ho'
              rcases ho' with rfl | ho'
              · intro hs
                apply hne
                rw [← hkey.2 p hp, hpx, hs.2]
              · exact b o' ho'
          · exact Or.inr ⟨o :: os1, o', os2, k', d', by rw [e1]; rfl, e2, e3, e4⟩

/-! ### The list of objects and the list of differences -/

/-- The objects `os` are made of the differences `ds`, in order, and of functions. -/
inductive MadeOf (P : NonFunDiff → Obj → Prop) : List Obj → List NonFunDiff → Prop
  | nil : MadeOf P [] []
  | function {o : Obj} {os : List Obj} {ds : List NonFunDiff} : o.first.kind = .function → MadeOf P os ds → MadeOf P (o :: os) ds
  | diff {o : Obj} {os : List Obj} {d : NonFunDiff} {ds : List NonFunDiff} :
      P d o → MadeOf P os ds → MadeOf P (o :: os) (d :: ds)

theorem MadeOf.append {P : NonFunDiff → Obj → Prop} {os os' : List Obj} {ds ds' : List NonFunDiff}
    (h : MadeOf P os ds) (h' : MadeOf P os' ds') : MadeOf P (os ++ os') (ds ++ ds') := by
  induction h with
  | nil => exact h'
  | function a _ ih => exact .function a ih
  | diff a _ ih => exact .diff a ih

theorem MadeOf.mem {P : NonFunDiff → Obj → Prop} {os : List Obj} {ds : List NonFunDiff} (h : MadeOf P os ds) :
    ∀ d ∈ ds, ∃ o ∈ os, P d o := by
  induction h with
  | nil => intro d hd; simp at hd
  | function a _ ih =>
    intro d hd
    obtain ⟨o, ho, hp⟩ := ih d hd
    exact ⟨o, List.mem_cons_of_mem _ ho, hp⟩
  | diff a _ ih =>
    intro d hd
    rw [List.mem_cons] at hd
    rcases hd with rfl | hd
    · exact ⟨_, List.mem_cons_self, a⟩
    · obtain ⟨o, ho, hp⟩ := ih d hd
      exact ⟨o, List.mem_cons_of_mem _ ho, hp⟩

theorem MadeOf.split {P : NonFunDiff → Obj → Prop} : ∀ {os1 : List Obj} {o : Obj} {os2 : List Obj} {ds : List NonFunDiff},
    MadeOf P (os1 ++ o :: os2) ds → o.first.kind = .syntactic →
    ∃ ds1 d ds2, ds = ds1 ++ d :: ds2 ∧ P d o ∧ MadeOf P os2 ds2
  | [], o, os2, ds, h, hs => by
    cases h with
    | function a _ => rw [hs] at a; cases a
    | diff a b => exact ⟨[], _, _, rfl, a, b⟩
  | o1 :: os1, o, os2, ds, h, hs => by
    cases h with
    | function a b => exact MadeOf.split b hs
    | diff a b =>
      obtain ⟨ds1, d, ds2, e, p, q⟩ := MadeOf.split b hs
      exact ⟨_ :: ds1, d, ds2, by rw [e]; rfl, p, q⟩

theorem bodiesOf_later {s : Side} : ∀ (ds : List NonFunDiff) (b : Dict Str Str) (n : Str),
    (∀ m p c body, NonFunDiff.syntax m p c body ∈ ds → m ≠ n) → (bodiesOf s b ds).get? n = b.get? n
  | [], b, n, _ => rfl
  | d :: ds, b, n, h => by
    unfold bodiesOf
    rw [List.foldl_cons]
    refine (bodiesOf_later ds _ n (fun m p c body hm => h m p c body (List.mem_cons_of_mem _ hm))).trans ?_
    cases d with
    | «syntax» m p c body => exact Dict.get?_set_ne _ _ (Ne.symm (h m p c body List.mem_cons_self))
    | type m p c f l => rfl

/-! ### C180 -/

/-- **C180** In a comparison that does not end with the verdict error, every entry shown for a syntactic difference
describes a difference recorded for a function found on both sides: its name and its call stacks are those of this
difference, and its text, if there is one, consists of the two bodies recorded for this difference. There is a text
whenever the entry is not equal or full diff is on. -/
theorem C180_own_text (env : FDEnv) (f1 f2 : Str) (prev : Option Graph) (fuel : Nat) (st st' : FDState) (res : Res)
    (g : Graph) (he : Enumerates env) (h : functionsDiff env f1 f2 prev fuel st = some (st', .ok res))
    (hk : res.kind ≠ .error) (hg : res.graph = some g) (e : Res) (hm : e ∈ res.inner.values)
    (hs : e.first.kind = .syntactic) :
    ∃ (v s1 s2 : Vid) (pl pr : List (Vid × Edge)) (n p : Str) (c : Side → List Call) (body : Side → Str),
      FoundOnBothSides st'.heap g f1 f2 v ∧ NonFunDiff.syntax n p c body ∈ (st'.heap v).nonfunDiffs ∧
      g.vertices.get? f1 = some s1 ∧ g.vertices.get? f2 = some s2 ∧
      CallPath st'.heap g .left ((st'.heap s1).files .left) s1 pl v ∧
      CallPath st'.heap g .right ((st'.heap s2).files .right) s2 pr v ∧
      e.first.name = n ∧ e.second.name = n ∧
      e.first.callstack = some ((if p = f1 then [] else shown pl) ++ c .left) ∧
      e.second.callstack = some ((if p = f2 then [] else shown pr) ++ c .right) ∧
      (∀ t, e.diff = some t → TwoBodies (body .left) (body .right) t) ∧
      (e.kind = .notEqual ∨ env.full = true → e.diff ≠ none) := by
  obtain ⟨st1, g', acc, _, hf, _, hg', _, _, hcase⟩ := functionsDiff_good h hk
  rw [hg] at hg'; cases hg'
  have hf0 := hf
  unfold funPairList at hf0
  cases el : reachableFrom st'.heap g .left f1 with
  | error x => rw [el] at hf0; simp at hf0
  | ok a =>
  cases er : reachableFrom st'.heap g .right f2 with
  | error x => rw [el] at hf0; simp only at hf0; rw [er] at hf0; simp at hf0
  | ok b =>
  obtain ⟨rl, btL⟩ := a
  obtain ⟨rr, btR⟩ := b
  obtain ⟨s1, h1, _⟩ := C04_reported_is_reachable el
  obtain ⟨s2, h2, _⟩ := C04_reported_is_reachable er
  obtain ⟨order, cs, acc', q1, q2, q3, q4, q5, q6, q7⟩ :=
    C08_exactly_interesting_differences env.enum he st'.heap g f1 f2 env.full s1 s2 rl rr btL btR h1 h2 el er
  rw [hf] at q1
  have q1 := Except.ok.inj q1
  subst q1
  let P : NonFunDiff → Obj → Prop := fun d o => ∃ v ∈ order, d ∈ (st'.heap v).nonfunDiffs ∧
    o = ⟨differenceEntry f1 .left (cs .left v) d, differenceEntry f2 .right (cs .right v) d, .notEqual⟩
  have made : MadeOf P acc.objs (order.flatMap (fun v => (st'.heap v).nonfunDiffs)) := by
    rw [q5]
    have : ∀ l : List Vid, (∀ v ∈ l, v ∈ order) → MadeOf P (l.flatMap (fun v =>
        ⟨functionEntry st'.heap f1 .left v (cs .left v), functionEntry st'.heap f2 .right v (cs .right v), (st'.heap v).result⟩ ::
        (st'.heap v).nonfunDiffs.map (fun d =>
          ⟨differenceEntry f1 .left (cs .left v) d, differenceEntry f2 .right (cs .right v) d, .notEqual⟩)))
        (l.flatMap (fun v => (st'.heap v).nonfunDiffs)) := by
      intro l hl
      induction l with
      | nil => exact .nil
      | cons v l ih =>
        rw [List.flatMap_cons, List.flatMap_cons]
        refine MadeOf.append (.function rfl ?_) (ih (fun w hw => hl w (List.mem_cons_of_mem _ hw)))
        have hds : ∀ ds : List NonFunDiff, (∀ d ∈ ds, d ∈ (st'.heap v).nonfunDiffs) → MadeOf P (ds.map (fun d =>
            (⟨differenceEntry f1 .left (cs .left v) d, differenceEntry f2 .right (cs .right v) d, .notEqual⟩ : Obj))) ds := by
          intro ds
          induction ds with
          | nil => intro _; exact .nil
          | cons d ds ih2 =>
            intro hd
            exact .diff ⟨v, hl v List.mem_cons_self, hd d List.mem_cons_self, rfl⟩
              (ih2 (fun d' h' => hd d' (List.mem_cons_of_mem _ h')))
        exact hds _ (fun _ hd => hd)
    exact this order (fun _ hv => hv)
  rcases hcase with ⟨_, _, hnil⟩ | ⟨_, r, hr', _, hin⟩
  · rw [hnil] at hm; simp [Dict.values] at hm
  rw [hin] at hm
  rcases compareObjs_last _ _ _ ⟨by simp [Res.new, Res.inner, Dict.keys], by simp [Res.new, Res.inner]⟩ hr' e hm with
    ⟨a, _⟩ | ⟨os1, o, os2, k, d, e1, e2, e3, e4⟩
  · simp [Res.new, Res.inner, Dict.values] at a
  subst e2
  rw [e1] at made
  have hs' : o.first.kind = .syntactic := hs
  obtain ⟨ds1, df, ds2, g1, ⟨v, hv, hdv, ho⟩, g3⟩ := made.split hs'
  have hlater : ∀ m p c body, NonFunDiff.syntax m p c body ∈ ds2 → m ≠ o.first.name := by
    intro m p c body hmem hEq
    obtain ⟨o', ho', w, _, _, hoo⟩ := g3.mem _ hmem
    exact e4 o' ho' (by rw [hoo]; exact ⟨rfl, hEq⟩)
  have hfound : FoundOnBothSides st'.heap g f1 f2 v := by
    obtain ⟨x, y, _⟩ := (q3 v).1 hv
    exact ⟨rl, btL, rr, btR, el, er, x, y⟩
  cases df with
  | type m p c f l => rw [ho] at hs'; cases hs'
  | «syntax» m p c body =>
    have hname : o.first.name = m := by rw [ho]; rfl
    have hname2 : o.second.name = m := by rw [ho]; rfl
    have hget : ∀ s b0, (bodiesOf s b0 (order.flatMap (fun v => (st'.heap v).nonfunDiffs))).get? m = some (body s) := by
      intro s b0
      rw [g1]
      unfold bodiesOf
      rw [List.foldl_append, List.foldl_cons]
      refine (bodiesOf_later ds2 _ m (by rw [← hname]; exact hlater)).trans ?_
      exact Dict.get?_set_self _ _ _
    have hdiff : d = if k = .notEqual ∨ env.full = true then some (bodiesText (body .left) (body .right)) else none := by
      unfold objDiff at e3
      rw [hs', hname, hname2, q6, q7, hget, hget] at e3
      split at e3
      · next hc => cases e3; rw [if_pos hc]
      · next hc => cases e3; rw [if_neg hc]
    refine ⟨v, s1, s2, cs .left v, cs .right v, m, p, c, body, hfound, hdv, h1, h2, (q4 v hv).1, (q4 v hv).2, hname, hname2,
      by rw [ho]; rfl, by rw [ho]; rfl, ?_, ?_⟩
    · intro t ht
      have ht : d = some t := ht
      rw [hdiff] at ht
      split at ht
      · cases ht; rfl
      · cases ht
    · intro hc
      have hc : k = .notEqual ∨ env.full = true := hc
      show d ≠ none
      rw [hdiff, if_pos hc]
      simp

/-- In the example with two differences named `M` the only entry for `M` has the call stack and the text of the one in `g`. -/
example : ∀ e ∈ ((compareObjs MacroEx.env MacroEx.acc (Res.new .none (str! "f") (str! "f")) MacroEx.acc.objs).1.setGraph
      (some MacroEx.graph)).inner.values, e.first.kind = .syntactic →
    ∃ (p : Str) (c : Side → List Call) (body : Side → Str), (NonFunDiff.syntax (str! "M") p c body = MacroEx.dF ∨
      NonFunDiff.syntax (str! "M") p c body = MacroEx.dG) ∧ e.diff = some (str! "  3\n\n  4\n") ∧
      TwoBodies (body .left) (body .right) (str! "  3\n\n  4\n") := by
  intro e he hs
  obtain ⟨v, _, _, _, _, n, p, c, body, _, hd, _, _, _, _, hn, _, _, _, ht, _⟩ :=
    C180_own_text MacroEx.env _ _ _ _ _ _ _ MacroEx.graph (fun _ => List.Perm.refl _) MacroEx.diff (by decide) rfl e he hs
  have hmem := he
  rw [MacroEx.inner] at hmem
  simp only [List.mem_cons, List.not_mem_nil, or_false] at hmem
  rcases hmem with rfl | rfl | rfl
  · exact absurd hs (by decide)
  · have : n = str! "M" := hn ▸ rfl
    subst this
    refine ⟨p, c, body, ?_, rfl, ht _ rfl⟩
    match v, hd with
    | 0, hd => exact Or.inl (List.mem_singleton.1 hd)
    | _ + 1, hd => exact Or.inr (List.mem_singleton.1 hd)
  · exact absurd hs (by decide)

end DK
