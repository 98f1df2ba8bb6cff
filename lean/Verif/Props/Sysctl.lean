import Verif.Lemmas.Sysctl

/-! Properties of snapshots of sysctl options: C130, C131, C132, C133. -/

set_option autoImplicit false

namespace DK
open Spec

/-! ### Entries of tables -/

private theorem parse_empty {M : KMod} {cs : List KConst} {m : SysMap} {found : List Str} {r : SysMap × List Str}
    (h : parseLoop M [] cs m found = .ok r) : r.1 = m := by
  induction cs generalizing m found with
  | nil => cases h; rfl
  | cons c cs ih =>
    rw [parseLoop] at h
    cases hn : entryName M c with
    | error x => rw [hn] at h; cases h
    | ok o =>
      rw [hn] at h
      cases o with
      | none => exact ih h
      | some n => exact absurd h (by simp [getlines, splitChar])

private theorem parse_total {M : KMod} {pre last : Str} (hp : pre = [] ∨ pre.getLast? = some '.') (hl : '.' ∉ last)
    (hne : last ≠ []) (ho : ¬ Occurs last (pre ++ last.dropLast)) {cs : List KConst} (m : SysMap) (found : List Str)
    (hd : ∀ c ∈ cs, ∃ o, entryName M c = .ok o) : ∃ r, parseLoop M (pre ++ last) cs m found = .ok r := by
  induction cs generalizing m found with
  | nil => exact ⟨_, rfl⟩
  | cons c cs ih =>
    have ih' := fun m found => ih m found (fun c hc => hd c (by simp [hc]))
    obtain ⟨o, ho'⟩ := hd c (by simp)
    rw [parseLoop, ho']
    cases o with
    | none => exact ih' _ _
    | some n =>
      simp only [getlines_last pre last hp hl hne]
      by_cases hm : cMatches n last = true
      · rw [if_pos hm, findAndReplace_suffix pre last n hne ho]
        exact ih' _ _
      · rw [if_neg hm]
        exact ih' _ _

private theorem entryName_total {M : KMod} (hT : TidyModule M) {root : Str} {path : List Nat} {elems : List KConst}
    (ht : TableAt M root path elems) : ∀ c ∈ elems, ∃ o, entryName M c = .ok o := by
  intro c hc
  unfold entryName
  split
  · next g rest =>
    obtain ⟨d, hd⟩ := hT.defined root path elems g rest ht hc
    rw [Dict.mem_get? hT.once hd]
    split
    · exact ⟨_, rfl⟩
    · exact ⟨_, rfl⟩
    · next h1 h2 => exact absurd rfl (h2 d)
  · exact ⟨_, rfl⟩

private theorem noOcc (e : Str) (he : e ≠ []) : ¬ Occurs e ([] ++ e.dropLast) := by
  rintro ⟨a, b, h⟩
  have := congrArg List.length h
  simp at this
  have : 0 < e.length := List.length_pos_iff.2 he
  omega

/-- The entries found by a pattern. -/
private theorem parseTable_spec {M : KMod} (hT : TidyModule M) {root : Str} {path : List Nat} (hd : '.' ∉ root) (hr : root ≠ [])
    {pre last : Str} (hp : pre = [] ∨ pre.getLast? = some '.') (hl : '.' ∉ last)
    (hne : last ≠ []) (ho : ¬ Occurs last (pre ++ last.dropLast)) {m : SysMap} {names : List Str}
    (h : parseTable M (tableText root path) (pre ++ last) [] = .ok (m, names)) :
    (∀ x, x ∈ names ↔ ∃ n c, TableEntry M root path n c ∧ cMatches n last = true ∧ x = pre ++ n) ∧
    (∀ x c, Dict.get? m x = some c ↔ ∃ n, TableEntry M root path n c ∧ cMatches n last = true ∧ x = pre ++ n) := by
  unfold parseTable at h
  cases hto : tableOps M (tableText root path) with
  | error x => rw [hto] at h; cases h
  | ok cs =>
    rw [hto] at h
    obtain ⟨rfl, rfl⟩ := parseLoop_ok hp hl hne ho h
    have mem : ∀ n c, (n, c) ∈ picked M last cs ↔ TableEntry M root path n c ∧ cMatches n last = true := by
      intro n c
      rw [mem_picked hT.once]
      constructor
      · rintro ⟨h1, h2, h3⟩; exact ⟨⟨cs, tableOps_mem hd hr hto h1, h1, h2⟩, h3⟩
      · rintro ⟨⟨elems, h1, h2, h3⟩, h4⟩
        have := tableOps_of hT.once hd hr h1
        rw [hto] at this; cases this
        exact ⟨h2, h3, h4⟩
    constructor
    · intro x
      simp only [List.nil_append, List.mem_map, Prod.exists, mem]
      constructor
      · rintro ⟨n, c, ⟨h1, h2⟩, rfl⟩; exact ⟨n, c, h1, h2, rfl⟩
      · rintro ⟨n, c, h1, h2, rfl⟩; exact ⟨n, c, ⟨h1, h2⟩, rfl⟩
    · intro x c
      constructor
      · intro hg
        rcases foldSet_get hg with h' | ⟨n, h1, h2⟩
        · cases h'
        · exact ⟨n, ((mem n c).1 h1).1, ((mem n c).1 h1).2, h2⟩
      · rintro ⟨n, h1, h2, rfl⟩
        refine get_foldSet ?_ ((mem n c).2 ⟨h1, h2⟩)
        by_cases hcs : cs = []
        · subst hcs; simp [picked]
        · obtain ⟨c0, hc0⟩ := List.exists_mem_of_ne_nil cs hcs
          exact picked_nodup hT.once (hT.distinct root path cs (tableOps_mem hd hr hto hc0))

private theorem cMatches_self {n : Str} (hn : n ≠ [] ∧ ¬ ∃ s, n = '{' :: s ++ ['}']) : cMatches n n = true := by
  rw [cMatches_eq n n hn.1, pyMatches_iff n n hn.2]
  exact .inr (.inr rfl)

/-- The entry found by a name. -/
private theorem getSysctl_sound {M : KMod} (hT : TidyModule M) {root : Str} {path : List Nat} (hd : '.' ∉ root) (hr : root ≠ [])
    {e : Str} (he : '.' ∉ e) {m : SysMap} {o : Option KConst}
    (h : getSysctl M (tableText root path) e [] = .ok (m, o)) (c : KConst) :
    o = some c ↔ TableEntry M root path e c := by
  unfold getSysctl at h
  simp only [Dict.get?_nil] at h
  cases hp : parseTable M (tableText root path) e [] with
  | error x => rw [hp] at h; cases h
  | ok r =>
    rw [hp] at h
    simp only [Except.ok.injEq, Prod.mk.injEq] at h
    obtain ⟨rfl, rfl⟩ := h
    by_cases hne : e = []
    · subst hne
      constructor
      · intro hg
        unfold parseTable at hp
        cases hto : tableOps M (tableText root path) with
        | error x => rw [hto] at hp; cases hp
        | ok cs =>
          rw [hto] at hp
          rw [parse_empty hp] at hg
          cases hg
      · intro ht
        exact absurd rfl (hT.names root path [] c ht).1
    · obtain ⟨_, h2⟩ := parseTable_spec hT hd hr (pre := []) (last := e) (.inl rfl) he hne (noOcc e hne)
        (m := r.1) (names := r.2) (by simpa using hp)
      rw [h2]
      constructor
      · rintro ⟨n, h1, _, h3⟩
        rw [List.nil_append] at h3
        rw [h3]; exact h1
      · intro ht
        exact ⟨e, ht, cMatches_self (hT.names root path e c ht), rfl⟩

private theorem getSysctl_total {M : KMod} (hT : TidyModule M) {root : Str} {path : List Nat} (hd : '.' ∉ root) (hr : root ≠ [])
    {e : Str} (he : '.' ∉ e) {c : KConst} (ht : TableEntry M root path e c) :
    ∃ m, getSysctl M (tableText root path) e [] = .ok (m, some c) := by
  have hne := (hT.names root path e c ht).1
  obtain ⟨elems, h1, h2, h3⟩ := ht
  have hto := tableOps_of hT.once hd hr h1
  obtain ⟨r, hr'⟩ := parse_total (pre := []) (last := e) (.inl rfl) he hne (noOcc e hne) [] [] (entryName_total hT h1)
  have hg : getSysctl M (tableText root path) e [] = .ok (r.1, Dict.get? r.1 e) := by
    unfold getSysctl
    simp only [Dict.get?_nil, parseTable, hto]
    rw [List.nil_append] at hr'
    rw [hr']
  refine ⟨r.1, ?_⟩
  rw [hg, (getSysctl_sound hT hd hr he hg c).2 ⟨elems, h1, h2, h3⟩]

private theorem entry_struct {M : KMod} {root : Str} {path : List Nat} {n : Str} {c : KConst} (h : TableEntry M root path n c) :
    ∃ ms, c = .struct ms := by
  obtain ⟨_, _, _, g, rest, _, rfl, _⟩ := h
  exact ⟨_, rfl⟩

private theorem varAt_iff {M : KMod} (hT : TidyModule M) {root : Str} {path : List Nat} {n : Str} {c : KConst}
    (h : TableEntry M root path n c) (i : Nat) (hi : i = 1 ∨ i = 4) (v : Str) (is : List Nat) :
    varAt c i = some (v, is) ↔ ∃ d, Member c i d ∧ Address d v is := by
  obtain ⟨ms, rfl⟩ := entry_struct h
  unfold varAt
  constructor
  · intro hv
    split at hv
    · next d hd => exact ⟨d, ⟨ms, rfl, hd⟩, addressOf_address hv⟩
    · cases hv
  · rintro ⟨d, hm, ha⟩
    have hm' := hm
    obtain ⟨ms', h1, h2⟩ := hm
    cases h1
    have h2' : (KConst.struct ms).ops[i]? = some d := h2
    rw [h2']
    refine address_addressOf (hT.plain root path n _ d h ?_ ⟨v, is, ha⟩) ha
    rcases hi with rfl | rfl
    · exact .inl hm'
    · exact .inr hm'

private theorem handlerOf_iff {M : KMod} {root : Str} {path : List Nat} {n : Str} {c : KConst}
    (h : TableEntry M root path n c) (f : Str) : handlerOf c = some f ↔ Handler c f := by
  obtain ⟨ms, rfl⟩ := entry_struct h
  unfold handlerOf
  constructor
  · intro hf
    split at hf
    · next f' hd => cases hf; exact ⟨ms, rfl, hd⟩
    · cases hf
  · rintro ⟨ms', h1, h2⟩
    cases h1
    have h2' : (KConst.struct ms).ops[5]? = some (.func f) := h2
    rw [h2']

/-! ### C132 -/

/-- The statement of C132: the data variable that is reported for an option is the variable whose address is in the entry. -/
def C132_statement : Prop :=
  ∀ (M : KMod) (root : Str) (path : List Nat) (n : Str) (c : KConst) (m : SysMap) (o : Option (Str × List Nat)),
    (M.map Prod.fst).Nodup → '.' ∉ root → '.' ∉ n → TableEntry M root path n c →
    getVarAt M (tableText root path) n 1 [] = .ok (m, o) → ∀ v is, o = some (v, is) ↔ EntryData c v is

/-- The entry `a` whose data is a member of the variable `v`, cast to another type. -/
private def castEntry : KConst :=
  .struct [.glob (str! "n"), .cast (.gep (.glob (str! "v")) [.int 0, .int 1]), .int 4, .int 420, .other, .func (str! "h")]

private def castModule : KMod :=
  [(str! "t", some (.array [castEntry])), (str! "n", some (.text ['a', Char.ofNat 0])), (str! "v", none)]

/-- The code does not satisfy C132: the address of a member of a variable that is cast to another type is not recognised. -/
theorem C132_fails : ¬ C132_statement := by
  intro h
  have ht : TableEntry castModule (str! "t") [] (str! "a") castEntry :=
    ⟨[castEntry], ⟨_, _, by simp [castModule], .here _, .inl rfl⟩, by simp,
      ⟨str! "n", _, 1, rfl, by simp [castModule], by decide⟩⟩
  have h1 := (h castModule (str! "t") [] (str! "a") castEntry [(str! "a", castEntry)] none (by decide) (by decide) (by decide)
    ht rfl (str! "v") [0, 1]).2
    ⟨.cast (.gep (.glob (str! "v")) [.int 0, .int 1]), ⟨_, rfl, rfl⟩, .cast _ _ _ (.gep _ _ [0, 1] (.var _))⟩
  cases h1

/-- **C132 (partial)** For tidy tables and patterns: the options found by a pattern are those with entries in the table that
match. For every option that was found, the handler and the data that are reported are those of its entry, and so it is for
the children that are found by names. Missing: entries of other tables, in particular data whose address is a cast of the
address of a member (`C132_fails`). -/
theorem C132_entries_partial (M : KMod) (hT : TidyModule M) (root : Str) (path : List Nat) (hd : '.' ∉ root) (hr : root ≠ []) :
    (∀ (es : List Str) (last : Str) (m : SysMap) (names : List Str), (∀ e ∈ es ++ [last], '.' ∉ e) →
      TidyPattern (joinChar '.' (es ++ [last])) →
      parseTable M (tableText root path) (joinChar '.' (es ++ [last])) [] = .ok (m, names) →
      (∀ x, x ∈ names ↔ ∃ n c, TableEntry M root path n c ∧ SysctlMatch n last ∧ x = joinChar '.' (es ++ [n])) ∧
      (∀ n c, TableEntry M root path n c → SysctlMatch n last →
        (∃ f, getProcFun M (tableText root path) (joinChar '.' (es ++ [n])) m = .ok (m, f) ∧ ∀ h, f = some h ↔ Handler c h) ∧
        (∃ d, getVarAt M (tableText root path) (joinChar '.' (es ++ [n])) 1 m = .ok (m, d) ∧
          ∀ v is, d = some (v, is) ↔ EntryData c v is))) ∧
    (∀ (e : Str) (m : SysMap) (d : Option (Str × List Nat)), '.' ∉ e →
      getVarAt M (tableText root path) e 4 [] = .ok (m, d) →
      ∀ v is, d = some (v, is) ↔ ∃ c, TableEntry M root path e c ∧ EntryChild c v is) := by
  refine ⟨fun es last m names hes hpat h => ?_, fun e m d he h v is => ?_⟩
  · obtain ⟨hne, ho⟩ := hpat es last rfl hes
    rw [join_last] at h
    obtain ⟨h1, h2⟩ := parseTable_spec hT hd hr (join_prefix es) (hes last (by simp)) hne ho h
    have hmatch : ∀ n c, TableEntry M root path n c → (cMatches n last = true ↔ SysctlMatch n last) := by
      intro n c ht
      have := hT.names root path n c ht
      rw [cMatches_eq n last this.1, pyMatches_iff n last this.2]
    refine ⟨fun x => ?_, fun n c ht hm => ?_⟩
    · rw [h1]
      constructor
      · rintro ⟨n, c, a, b, rfl⟩; exact ⟨n, c, a, (hmatch n c a).1 b, (join_last es n).symm⟩
      · rintro ⟨n, c, a, b, rfl⟩; exact ⟨n, c, a, (hmatch n c a).2 b, join_last es n⟩
    · have hg : Dict.get? m (joinChar '.' (es ++ [n])) = some c :=
        (h2 _ c).2 ⟨n, ht, (hmatch n c ht).2 hm, join_last es n⟩
      have hs : getSysctl M (tableText root path) (joinChar '.' (es ++ [n])) m = .ok (m, some c) := by
        unfold getSysctl; rw [hg]
      exact ⟨⟨handlerOf c, by unfold getProcFun; rw [hs], fun f => handlerOf_iff ht f⟩,
        ⟨varAt c 1, by unfold getVarAt; rw [hs], fun v is => varAt_iff hT ht 1 (.inl rfl) v is⟩⟩
  · unfold getVarAt at h
    cases hg : getSysctl M (tableText root path) e [] with
    | error x => rw [hg] at h; cases h
    | ok r =>
      obtain ⟨m', o⟩ := r
      have hs := getSysctl_sound hT hd hr he hg
      rw [hg] at h
      cases o with
      | none =>
        simp only [Except.ok.injEq, Prod.mk.injEq] at h
        rw [← h.2]
        constructor
        · intro h'; cases h'
        · rintro ⟨c, ht, _⟩; exact absurd ((hs c).2 ht) (by simp)
      | some c =>
        simp only [Except.ok.injEq, Prod.mk.injEq] at h
        rw [← h.2]
        have ht := (hs c).1 rfl
        rw [varAt_iff hT ht 4 (.inr rfl)]
        constructor
        · intro h'; exact ⟨c, ht, h'⟩
        · rintro ⟨c', ht', hc⟩
          have := (hs c').2 ht'
          cases this
          exact hc

/-! ### C133 -/

private theorem firstTable_start {es rest : List Str} {root : Str} {path : List Nat} (h : StartTable es root path rest) :
    firstTable es = .ok (tableText root path, rest) ∧ '.' ∉ root ∧ root ≠ [] := by
  cases h with
  | base e es he => exact ⟨by unfold firstTable; dsimp only; rw [if_pos he]; rfl, by decide, by decide⟩
  | conf dev es => exact ⟨by rfl, by decide, by decide⟩
  | ipv4 e es he =>
    exact ⟨by unfold firstTable; dsimp only; rw [if_neg (by decide), if_pos rfl, if_pos rfl, if_neg he]; rfl, by decide, by decide⟩
  | core es => exact ⟨by rfl, by decide, by decide⟩

private theorem start_firstTable {es rest : List Str} {t : Str} (h : firstTable es = .ok (t, rest)) :
    rest = [] ∨ ∃ root path, StartTable es root path rest ∧ t = tableText root path := by
  unfold firstTable at h
  split at h
  · cases h
  · next e es =>
    split at h
    · next he => cases h; exact .inr ⟨_, _, .base e es he, by decide⟩
    · split at h
      · next _ he =>
        subst he
        split at h
        · cases h
        · next e1 es1 =>
          split at h
          · next he1 =>
            subst he1
            split at h
            · cases h
            · next e2 es2 =>
              split at h
              · next he2 =>
                subst he2
                cases h
                cases es2 with
                | nil => exact .inl rfl
                | cons x es2 => exact .inr ⟨_, _, .conf x es2, by decide⟩
              · next he2 => cases h; exact .inr ⟨_, _, .ipv4 e2 es2 he2, by decide⟩
          · split at h
            · next he1 => subst he1; cases h; exact .inr ⟨_, _, .core _, by decide⟩
            · cases h
      · cases h

private theorem head_tableText {root : Str} (path : List Nat) (h : '.' ∉ root) :
    (splitChar '.' (tableText root path)).headD [] = root := by rw [split_tableText root path h]; rfl

private theorem descend_sound {E : SysEnv} (hE : ∀ p, TidyModule (E.content p)) {es : List Str} (hes : ∀ e ∈ es, '.' ∉ e)
    {root : Str} {path : List Nat} (hd : '.' ∉ root) (hr : root ≠ []) {p t : Str}
    (h : descend E es (tableText root path) = .ok (p, t)) :
    ∃ root' path', LeadsTo E root path es p root' path' ∧ t = tableText root' path' ∧ '.' ∉ root' ∧ root' ≠ [] := by
  induction es generalizing root path with
  | nil => cases h
  | cons e es ih =>
    rw [descend, head_tableText path hd] at h
    cases hm : E.modFor root with
    | none => rw [hm] at h; cases h
    | some q =>
      rw [hm] at h
      cases es with
      | nil => cases h; exact ⟨root, path, .last _ _ _ _ hm, rfl, hd, hr⟩
      | cons e' es =>
        simp only at h
        cases hv : getVarAt (E.content q) (tableText root path) e 4 [] with
        | error x => rw [hv] at h; cases h
        | ok r =>
          obtain ⟨m, o⟩ := r
          rw [hv] at h
          cases o with
          | none => cases h
          | some v =>
            obtain ⟨v, is⟩ := v
            obtain ⟨c, h1, h2⟩ := ((C132_entries_partial (E.content q) (hE q) root path hd hr).2 e m _
              (hes e (by simp)) hv v is).1 rfl
            obtain ⟨h3, h4, h5⟩ := (hE q).children root path e c v is h1 h2
            have h' : descend E (e' :: es) (tableText v []) = .ok (p, t) := by
              have : tableText v [] = v := by simp [tableText]
              rw [this]; exact h
            obtain ⟨root', path', a, b⟩ := ih (fun x hx => hes x (by simp [hx])) h4 h3 h'
            exact ⟨root', path', .step _ _ _ _ _ q c v is _ _ _ hm h1 h2 h5 a, b⟩

private theorem descend_total {E : SysEnv} (hE : ∀ p, TidyModule (E.content p)) {es : List Str}
    {root : Str} {path : List Nat} {p root' : Str} {path' : List Nat} (h : LeadsTo E root path es p root' path')
    (hes : ∀ e ∈ es, '.' ∉ e) (hd : '.' ∉ root) (hr : root ≠ []) :
    descend E es (tableText root path) = .ok (p, tableText root' path') := by
  induction h with
  | last root path e p hm => rw [descend, head_tableText path hd, hm]
  | step root path e e' es q c v is p root' path' hm h1 h2 h3 h4 ih =>
    obtain ⟨a, b, _⟩ := (hE q).children root path e c v is h1 h2
    obtain ⟨m, hg⟩ := getSysctl_total (hE q) hd hr (hes e (by simp)) h1
    have hv : getVarAt (E.content q) (tableText root path) e 4 [] = .ok (m, some (v, is)) := by
      unfold getVarAt
      rw [hg]
      simp only
      rw [(varAt_iff (hE q) h1 4 (.inr rfl) v is).2 h2]
    rw [descend, head_tableText path hd, hm]
    simp only [hv]
    have : tableText v [] = v := by simp [tableText]
    rw [← this]
    exact ih (fun x hx => hes x (by simp [hx])) b a

private theorem sysctlModule_iff {E : SysEnv} (hE : ∀ p, TidyModule (E.content p)) {es : List Str} (hne : es ≠ [])
    (hes : ∀ e ∈ es, '.' ∉ e) (p t : Str) :
    sysctlModule E (joinChar '.' es) = .ok (p, t) ↔
      ∃ root path, TableFor E es p root path ∧ t = tableText root path ∧ '.' ∉ root ∧ root ≠ [] := by
  unfold sysctlModule
  rw [splitChar_join '.' es hne hes]
  have sub : ∀ {root path rest}, StartTable es root path rest → ∀ e ∈ rest, '.' ∉ e := by
    intro root path rest hs e he
    apply hes
    cases hs with
    | base _ _ _ => exact he
    | conf _ _ => simp [he]
    | ipv4 _ _ _ => simp at he; simp [he]
    | core _ => simp [he]
  constructor
  · intro h
    cases hf : firstTable es with
    | error x => rw [hf] at h; cases h
    | ok r =>
      obtain ⟨t0, rest⟩ := r
      rw [hf] at h
      rcases start_firstTable hf with rfl | ⟨root, path, hs, rfl⟩
      · cases h
      · obtain ⟨_, hd, hr⟩ := firstTable_start hs
        obtain ⟨root', path', a, b⟩ := descend_sound hE (sub hs) hd hr h
        exact ⟨root', path', ⟨root, path, rest, hs, a⟩, b⟩
  · rintro ⟨root', path', ⟨root, path, rest, hs, hl⟩, rfl, _⟩
    obtain ⟨hf, hd, hr⟩ := firstTable_start hs
    rw [hf]
    exact descend_total hE hl (sub hs) hd hr

private theorem tableFor_root {E : SysEnv} (hE : ∀ p, TidyModule (E.content p)) {es : List Str} {p root : Str} {path : List Nat}
    (h : TableFor E es p root path) : '.' ∉ root ∧ root ≠ [] := by
  obtain ⟨root0, path0, es0, hs, hl⟩ := h
  obtain ⟨-, hd, hr⟩ := firstTable_start hs
  clear hs
  induction hl with
  | last => exact ⟨hd, hr⟩
  | step root path e e' es q c v is p root' path' hm h1 h2 h3 h4 ih =>
    obtain ⟨a, b, _⟩ := (hE q).children root path e c v is h1 h2
    exact ih b a

/-- The statement of C133: the table that is searched for an option is the one reached by the names of its parents. -/
def C133_statement : Prop :=
  ∀ (E : SysEnv) (es : List Str) (p t : Str), (∀ q, ((E.content q).map Prod.fst).Nodup) → es ≠ [] → (∀ e ∈ es, '.' ∉ e) →
    (sysctlModule E (joinChar '.' es) = .ok (p, t) ↔ ∃ root path, TableFor E es p root path ∧ t = tableText root path)

private def innerEntry : KConst :=
  .struct [.glob (str! "n"), .other, .int 0, .int 0, .gep (.glob (str! "tables")) [.int 0, .int 1]]

private def innerModule : KMod :=
  [(str! "sysctl_base_table", some (.array [innerEntry])), (str! "n", some (.text (str! "vm"))),
   (str! "tables", some (.array [.array [], .array []]))]

private def innerEnv : SysEnv := ⟨fun _ => some (str! "f.ll"), fun _ => innerModule, fun _ => none, fun _ _ => []⟩

/-- The code does not satisfy C133: when the child table is an element of an array of tables, the array is taken for the
table. -/
theorem C133_fails : ¬ C133_statement := by
  intro h
  have h1 := (h innerEnv [str! "vm", str! "a"] (str! "f.ll") (str! "tables") (fun _ => by show (List.map Prod.fst innerModule).Nodup; decide)
    (by decide) (by decide)).1 rfl
  obtain ⟨root, path, ⟨root0, path0, es0, hs, hl⟩, _⟩ := h1
  cases hs with
  | base e es he =>
    cases hl with
    | step _ _ _ _ _ q c v is _ _ _ hm ht hc hz _ =>
      obtain ⟨elems, ⟨c0, d, hc0, hin, hel⟩, hmem, _⟩ := ht
      cases hin
      have hc0' : (str! "sysctl_base_table", some c0) ∈ innerModule := hc0
      have : c0 = .array [innerEntry] := by
        simpa [innerModule] using hc0'
      subst this
      rcases hel with hel | hel
      · cases hel
        simp only [List.mem_singleton] at hmem
        subst hmem
        obtain ⟨d, ⟨ms, hms, hd⟩, ha⟩ := hc
        cases hms
        simp only [List.getElem?_cons_succ, List.getElem?_cons_zero, Option.some.injEq] at hd
        subst hd
        generalize hx : [KConst.int 0, KConst.int 1] = xs at ha
        cases ha with
        | gep _ _ _ _ =>
          cases is with
          | nil => cases hx
          | cons i is =>
            cases is with
            | nil => simp at hx
            | cons j is =>
              simp at hx
              have := hz j (by simp)
              omega
      · cases hel

/-- **C133 (partial)** For tidy tables: the search for the table of an option ends with a file and a table iff these are
reached from the table where the option starts by following the names of its parents. Missing: other tables (`C133_fails`). -/
theorem C133_hierarchy_partial (E : SysEnv) (hE : ∀ p, TidyModule (E.content p)) (es : List Str) (hne : es ≠ [])
    (hes : ∀ e ∈ es, '.' ∉ e) (p t : Str) :
    sysctlModule E (joinChar '.' es) = .ok (p, t) ↔ ∃ root path, TableFor E es p root path ∧ t = tableText root path := by
  rw [sysctlModule_iff hE hne hes]
  constructor
  · rintro ⟨root, path, h1, h2, _⟩; exact ⟨root, path, h1, h2⟩
  · rintro ⟨root, path, h1, h2⟩
    exact ⟨root, path, h1, h2, tableFor_root hE h1⟩

/-! ### C130 -/

/-- The functions with descriptions `P` are added to the groups. -/
private def Adds (s s' : FunGroups) (P : Option Str → Str → FunDesc → Prop) : Prop :=
  ∀ g f, (∀ d, s'.getByName f g = some d → s.getByName f g = some d ∨ P g f d) ∧
    (((∃ d, s.getByName f g = some d) ∨ ∃ d, P g f d) → ∃ d, s'.getByName f g = some d)

private theorem adds_refl (s : FunGroups) : Adds s s (fun _ _ _ => False) := fun _ _ =>
  ⟨fun _ h => .inl h, by rintro (h | ⟨_, h⟩); exacts [h, h.elim]⟩

private theorem adds_trans {s s1 s2 : FunGroups} {P Q : Option Str → Str → FunDesc → Prop} (h1 : Adds s s1 P) (h2 : Adds s1 s2 Q) :
    Adds s s2 (fun g f d => P g f d ∨ Q g f d) := by
  intro g f
  refine ⟨fun d hd => ?_, ?_⟩
  · rcases (h2 g f).1 d hd with h | h
    · rcases (h1 g f).1 d h with h | h
      · exact .inl h
      · exact .inr (.inl h)
    · exact .inr (.inr h)
  · rintro (h | ⟨d, h | h⟩)
    · exact (h2 g f).2 (.inl ((h1 g f).2 (.inl h)))
    · exact (h2 g f).2 (.inl ((h1 g f).2 (.inr ⟨d, h⟩)))
    · exact (h2 g f).2 (.inr ⟨d, h⟩)

private theorem adds_congr {s s' : FunGroups} {P Q : Option Str → Str → FunDesc → Prop} (h : Adds s s' P)
    (hPQ : ∀ g f d, P g f d ↔ Q g f d) : Adds s s' Q := fun g f =>
  ⟨fun d hd => ((h g f).1 d hd).imp_right (hPQ g f d).1, fun hq => (h g f).2 (hq.imp_right fun ⟨d, hd⟩ => ⟨d, (hPQ g f d).2 hd⟩)⟩

private theorem adds_fun (s : FunGroups) (n : Str) (d0 : FunDesc) (g0 : Option Str) :
    Adds s (s.addFun n d0 g0) (fun g f d => g = g0 ∧ f = n ∧ d = d0) := by
  intro g f
  simp only [getByName_addFun]
  by_cases h : n = f ∧ g0 = g
  · simp only [if_pos h]
    exact ⟨fun d hd => .inr ⟨h.2.symm, h.1.symm, (Option.some.inj hd).symm⟩, fun _ => ⟨d0, rfl⟩⟩
  · simp only [if_neg h]
    refine ⟨fun d hd => .inl hd, ?_⟩
    rintro (h' | ⟨d, h1, h2, _⟩)
    · exact h'
    · exact absurd ⟨h2.symm, h1.symm⟩ h

private theorem adds_handler (E : SysEnv) (n : Str) (h : Option Str) (s : FunGroups) :
    Adds s (addHandler E n h s) (fun g f d => g = some n ∧ ∃ m, h = some f ∧ E.modFor f = some m ∧
      d = ⟨some m, none, some (str! "proc handler function")⟩) := by
  unfold addHandler
  cases h with
  | none => exact adds_congr (adds_refl s) (fun g f d => by simp)
  | some f0 =>
    simp only
    cases hm : E.modFor f0 with
    | none =>
      refine adds_congr (adds_refl s) (fun g f d => ⟨False.elim, ?_⟩)
      rintro ⟨_, m, h1, h2, _⟩
      cases h1
      rw [hm] at h2; cases h2
    | some p =>
      refine adds_congr (adds_fun s f0 _ (some n)) (fun g f d => ⟨?_, ?_⟩)
      · rintro ⟨rfl, rfl, rfl⟩; exact ⟨rfl, p, rfl, hm, rfl⟩
      · rintro ⟨rfl, m, h1, h2, rfl⟩
        cases h1
        rw [hm] at h2; cases h2
        exact ⟨rfl, rfl, rfl⟩

private theorem adds_dataFuns (n : Str) (h : Option Str) (v p : Str) (fs : List Str) (s : FunGroups) :
    Adds s (addDataFuns n h v p fs s) (fun g f d => g = some n ∧ f ∈ fs ∧ h ≠ some f ∧ d = ⟨some p, some v, some (dataTag v)⟩) := by
  induction fs generalizing s with
  | nil => exact adds_congr (adds_refl s) (fun g f d => by simp)
  | cons f0 fs ih =>
    rw [addDataFuns]
    by_cases hf : some f0 = h
    · rw [if_pos hf]
      refine adds_congr (ih s) (fun g f d => ⟨?_, ?_⟩)
      · rintro ⟨a, b, c⟩; exact ⟨a, by simp [b], c⟩
      · rintro ⟨a, b, c, e⟩
        rcases List.mem_cons.1 b with rfl | b
        · exact absurd hf.symm c
        · exact ⟨a, b, c, e⟩
    · rw [if_neg hf]
      refine adds_congr (adds_trans (adds_fun s f0 _ (some n)) (ih _)) (fun g f d => ⟨?_, ?_⟩)
      · rintro (⟨rfl, rfl, rfl⟩ | ⟨a, b, c⟩)
        · exact ⟨rfl, by simp, fun h' => hf h'.symm, rfl⟩
        · exact ⟨a, by simp [b], c⟩
      · rintro ⟨a, b, c, e⟩
        rcases List.mem_cons.1 b with rfl | b
        · exact .inl ⟨a, rfl, e⟩
        · exact .inr ⟨a, b, c, e⟩

private theorem adds_dataMods (E : SysEnv) (n : Str) (h : Option Str) (data : Str × List Nat) (ps : List Str) (s : FunGroups) :
    Adds s (addDataMods E n h data ps s) (fun g f d => g = some n ∧ ∃ p ∈ ps, f ∈ E.funsUsing p data ∧ h ≠ some f ∧
      d = ⟨some p, some data.1, some (dataTag data.1)⟩) := by
  induction ps generalizing s with
  | nil => exact adds_congr (adds_refl s) (fun g f d => by simp)
  | cons p ps ih =>
    rw [addDataMods]
    refine adds_congr (adds_trans (adds_dataFuns n h data.1 p _ s) (ih _)) (fun g f d => ⟨?_, ?_⟩)
    · rintro (⟨a, b⟩ | ⟨a, q, b, c⟩)
      · exact ⟨a, p, by simp, b⟩
      · exact ⟨a, q, by simp [b], c⟩
    · rintro ⟨a, q, b, c⟩
      rcases List.mem_cons.1 b with rfl | b
      · exact .inl ⟨a, c⟩
      · exact .inr ⟨a, q, b, c⟩

/-- What one entry adds. -/
private def Contributes (E : SysEnv) (c : KConst) (f : Str) (d : FunDesc) : Prop :=
  (∃ m, handlerOf c = some f ∧ E.modFor f = some m ∧ d = ⟨some m, none, some (str! "proc handler function")⟩) ∨
  (∃ data ps p, varAt c 1 = some data ∧ E.modsUsing data.1 = some ps ∧ p ∈ ps ∧ f ∈ E.funsUsing p data ∧ handlerOf c ≠ some f ∧
    d = ⟨some p, some data.1, some (dataTag data.1)⟩)

private theorem adds_options {E : SysEnv} {M : KMod} {t : Str} {m : SysMap} {ns : List Str}
    (hns : ∀ n ∈ ns, ∃ c, Dict.get? m n = some c) {s s' : FunGroups} (h : genOptions E M t ns m s = .ok s') :
    Adds s s' (fun g f d => ∃ n ∈ ns, ∃ c, Dict.get? m n = some c ∧ g = some n ∧ Contributes E c f d) := by
  induction ns generalizing s with
  | nil => cases h; exact adds_congr (adds_refl _) (fun g f d => by simp)
  | cons n ns ih =>
    obtain ⟨c, hc⟩ := hns n (by simp)
    have ih' := fun {s : FunGroups} => ih (fun n hn => hns n (by simp [hn])) (s := s)
    have hs : getSysctl M t n m = .ok (m, some c) := by unfold getSysctl; rw [hc]
    have split : ∀ g f d, (∃ n' ∈ n :: ns, ∃ c, Dict.get? m n' = some c ∧ g = some n' ∧ Contributes E c f d) ↔
        (g = some n ∧ Contributes E c f d) ∨ ∃ n' ∈ ns, ∃ c, Dict.get? m n' = some c ∧ g = some n' ∧ Contributes E c f d := by
      intro g f d
      constructor
      · rintro ⟨n', h1, c', h2, h3, h4⟩
        rcases List.mem_cons.1 h1 with rfl | h1
        · rw [hc] at h2; cases h2; exact .inl ⟨h3, h4⟩
        · exact .inr ⟨n', h1, c', h2, h3, h4⟩
      · rintro (⟨h1, h2⟩ | ⟨n', h1, h2⟩)
        · exact ⟨n, by simp, c, hc, h1, h2⟩
        · exact ⟨n', by simp [h1], h2⟩
    simp only [genOptions, getProcFun, getVarAt, hs] at h
    cases hv : varAt c 1 with
    | none =>
      rw [hv] at h
      refine adds_congr (adds_trans (adds_handler E n (handlerOf c) s) (ih' h)) (fun g f d => ?_)
      rw [split]
      refine or_congr ⟨?_, ?_⟩ Iff.rfl
      · rintro ⟨a, b⟩; exact ⟨a, .inl b⟩
      · rintro ⟨a, b | ⟨data, _, _, h', _⟩⟩
        · exact ⟨a, b⟩
        · rw [hv] at h'; cases h'
    | some data =>
      rw [hv] at h
      simp only at h
      cases hp : E.modsUsing data.1 with
      | none => rw [hp] at h; cases h
      | some ps =>
        rw [hp] at h
        refine adds_congr (adds_trans (adds_trans (adds_handler E n (handlerOf c) s)
          (adds_dataMods E n (handlerOf c) data ps _)) (ih' h)) (fun g f d => ?_)
        rw [split]
        refine or_congr ⟨?_, ?_⟩ Iff.rfl
        · rintro (⟨a, b⟩ | ⟨a, p, b⟩)
          · exact ⟨a, .inl b⟩
          · exact ⟨a, .inr ⟨data, ps, p, hv, hp, b⟩⟩
        · rintro ⟨a, b | ⟨data', ps', p, h1, h2, h3⟩⟩
          · exact .inl ⟨a, b⟩
          · rw [hv] at h1; cases h1
            rw [hp] at h2; cases h2
            exact .inr ⟨a, p, h3⟩

private theorem inSnapshot_one {E : SysEnv} {sym : Str} {syms : List Str} {g f : Str} {d : FunDesc} :
    InSnapshot E (sym :: syms) g f d ↔ InSnapshot E [sym] g f d ∨ InSnapshot E syms g f d := by
  constructor
  · rintro ⟨es, last, p, root, path, n, c, h1, h2⟩
    rcases List.mem_cons.1 h1 with h1 | h1
    · exact .inl ⟨es, last, p, root, path, n, c, by simp [h1], h2⟩
    · exact .inr ⟨es, last, p, root, path, n, c, h1, h2⟩
  · rintro (⟨es, last, p, root, path, n, c, h1, h2⟩ | ⟨es, last, p, root, path, n, c, h1, h2⟩)
    · exact ⟨es, last, p, root, path, n, c, by simp at h1; simp [h1], h2⟩
    · exact ⟨es, last, p, root, path, n, c, by simp [h1], h2⟩

private theorem leads_det {E : SysEnv} (hE : ∀ p, TidyModule (E.content p)) {es : List Str} (hne : es ≠ [])
    (hes : ∀ e ∈ es, '.' ∉ e) {p p' root root' : Str} {path path' : List Nat}
    (h : TableFor E es p root path) (h' : TableFor E es p' root' path') : p = p' ∧ tableText root path = tableText root' path' := by
  have h1 := (C133_hierarchy_partial E hE es hne hes p _).2 ⟨root, path, h, rfl⟩
  have h2 := (C133_hierarchy_partial E hE es hne hes p' _).2 ⟨root', path', h', rfl⟩
  rw [h1] at h2
  simp only [Except.ok.injEq, Prod.mk.injEq] at h2
  exact h2

private theorem tableText_inj {root root' : Str} {path path' : List Nat} (h : '.' ∉ root) (h' : '.' ∉ root')
    (he : tableText root path = tableText root' path') : root = root' ∧ path = path' := by
  have := congrArg (splitChar '.') he
  rw [split_tableText root path h, split_tableText root' path' h', List.cons.injEq] at this
  refine ⟨this.1, ?_⟩
  have h2 := congrArg (List.map stoi) this.2
  simp only [List.map_map, Function.comp_def, stoi_dec] at h2
  exact List.map_injective_iff.2 (fun a b => Option.some.inj) h2

private theorem split_last (sym : Str) : ∃ es last, sym = joinChar '.' (es ++ [last]) ∧ ∀ e ∈ es ++ [last], '.' ∉ e := by
  have hne := splitChar_ne_nil '.' sym
  refine ⟨(splitChar '.' sym).dropLast, (splitChar '.' sym).getLast hne, ?_, ?_⟩
  · rw [List.dropLast_append_getLast, join_split]
  · rw [List.dropLast_append_getLast]
    exact fun e he => (mem_splitChar he).1

private theorem join_inj {ws ws' : List Str} (h : ws ≠ []) (h' : ws' ≠ []) (hd : ∀ w ∈ ws, '.' ∉ w) (hd' : ∀ w ∈ ws', '.' ∉ w)
    (he : joinChar '.' ws = joinChar '.' ws') : ws = ws' := by
  have := congrArg (splitChar '.') he
  rwa [splitChar_join '.' ws h hd, splitChar_join '.' ws' h' hd'] at this

private theorem adds_symbol {E : SysEnv} (hE : ∀ p, TidyModule (E.content p)) {sym : Str} (hp : TidyPattern sym)
    {s s' : FunGroups} (h : genSymbol E sym s = .ok s') :
    Adds s s' (fun g f d => ∃ x, g = some x ∧ InSnapshot E [sym] x f d) := by
  obtain ⟨es, last, rfl, hes⟩ := split_last sym
  have hne : es ++ [last] ≠ [] := by simp
  unfold genSymbol at h
  cases hm : sysctlModule E (joinChar '.' (es ++ [last])) with
  | error x =>
    rw [hm] at h
    have : s' = s := by
      cases x with
      | notFound => cases h; rfl
      | _ => cases h
    subst this
    refine adds_congr (adds_refl s') (fun g f d => ⟨False.elim, ?_⟩)
    rintro ⟨x, _, es', last', p, root, path, n, c, h1, h2, h3, _⟩
    rw [List.mem_singleton] at h1
    have he := join_inj (by simp) hne h2 hes h1
    rw [he] at h3
    rw [(C133_hierarchy_partial E hE _ hne hes p _).2 ⟨root, path, h3, rfl⟩] at hm
    cases hm
  | ok r =>
    obtain ⟨p, t⟩ := r
    obtain ⟨root, path, ht, rfl, hd, hr⟩ := (sysctlModule_iff hE hne hes p t).1 hm
    rw [hm] at h
    simp only at h
    cases hpt : parseTable (E.content p) (tableText root path) (joinChar '.' (es ++ [last])) [] with
    | error x => rw [hpt] at h; cases h
    | ok r =>
      obtain ⟨m, names⟩ := r
      rw [hpt] at h
      simp only at h
      have hT := hE p
      obtain ⟨hlast, ho⟩ := hp es last rfl hes
      rw [join_last] at hpt
      obtain ⟨h1, h2⟩ := parseTable_spec hT hd hr (join_prefix es) (hes last (by simp)) hlast ho hpt
      have hmatch : ∀ n c, TableEntry (E.content p) root path n c → (cMatches n last = true ↔ SysctlMatch n last) := by
        intro n c ht
        have := hT.names root path n c ht
        rw [cMatches_eq n last this.1, pyMatches_iff n last this.2]
      refine adds_congr (adds_options ?_ h) (fun g f d => ⟨?_, ?_⟩)
      · intro n hn
        obtain ⟨n', c, a, b, e⟩ := (h1 n).1 hn
        exact ⟨c, (h2 n c).2 ⟨n', a, b, e⟩⟩
      · rintro ⟨x, _, c, hx, rfl, hc⟩
        obtain ⟨n, a, b, rfl⟩ := (h2 x c).1 hx
        refine ⟨_, rfl, es, last, p, root, path, n, c, by simp, hes, ht, a, (hmatch n c a).1 b, (join_last es n).symm, ?_⟩
        rcases hc with ⟨q, c1, c2⟩ | ⟨data, ps, q, c1, c2, c3, c4, c5, c6⟩
        · exact .inl ⟨q, (handlerOf_iff a f).1 c1, c2⟩
        · exact .inr ⟨data.1, data.2, ps, q, (varAt_iff hT a 1 (.inl rfl) _ _).1 c1, c2, c3, c4,
            fun hh => c5 ((handlerOf_iff a f).2 hh), c6⟩
      · rintro ⟨x, rfl, es', last', p', root', path', n, c, a1, a2, a3, a4, a5, rfl, a6⟩
        rw [List.mem_singleton] at a1
        have he := join_inj (by simp) hne a2 hes a1
        obtain ⟨rfl, e2⟩ := List.append_inj' he rfl
        simp only [List.cons.injEq, and_true] at e2
        subst e2
        obtain ⟨rfl, et⟩ := leads_det hE hne hes a3 ht
        have a4' : TableEntry (E.content p') root path n c := by
          obtain ⟨rfl, rfl⟩ := tableText_inj (tableFor_root hE a3).1 hd et
          exact a4
        have hb := (hmatch n c a4').2 a5
        refine ⟨_, (h1 _).2 ⟨n, c, a4', hb, join_last _ n⟩, c, (h2 _ c).2 ⟨n, a4', hb, join_last _ n⟩, rfl, ?_⟩
        rcases a6 with ⟨q, c1, c2⟩ | ⟨v, is, ps, q, c1, c2, c3, c4, c5, c6⟩
        · exact .inl ⟨q, (handlerOf_iff a4' f).2 c1, c2⟩
        · exact .inr ⟨(v, is), ps, q, (varAt_iff hT a4' 1 (.inl rfl) v is).2 c1, c2, c3, c4,
            fun hh => c5 ((handlerOf_iff a4' f).1 hh), c6⟩

/-- The statement of C130 without assumptions about the tables and the patterns. -/
def C130_statement : Prop :=
  ∀ (E : SysEnv) (syms : List Str) (s : FunGroups), genSysctls E syms [] = .ok s →
    (∀ g f d, s.getByName f g = some d → ∃ x, g = some x ∧ InSnapshot E syms x f d) ∧
    (∀ x f d, InSnapshot E syms x f d → ∃ d', s.getByName f (some x) = some d')

private def castNetModule : KMod :=
  [(str! "net_core_table", some (.array [castEntry])), (str! "n", some (.text ['a', Char.ofNat 0])), (str! "v", none)]

/-- The function `g` of the file `f.ll` uses the data of the option `a`. -/
private def castEnv : SysEnv :=
  ⟨fun _ => some (str! "f.ll"), fun _ => castNetModule, fun _ => some [str! "f.ll"], fun _ _ => [str! "g"]⟩

/-- The code does not satisfy C130: if the data of an option is a member of a variable that is cast to another type, the
functions that use it are missing in the snapshot, without an error. -/
theorem C130_fails : ¬ C130_statement := by
  intro h
  have hrun : genSysctls castEnv [str! "net.core.a"] [] = .ok (addHandler castEnv (str! "net.core.a") (some (str! "h")) []) := by
    rfl
  obtain ⟨d', hd⟩ := (h castEnv _ _ hrun).2 (str! "net.core.a") (str! "g")
    ⟨some (str! "f.ll"), some (str! "v"), some (str! "using data variable \"" ++ str! "v" ++ str! "\"")⟩
    ⟨[str! "net", str! "core"], str! "a", str! "f.ll", str! "net_core_table", [], str! "a", castEntry, by decide, by decide,
      ⟨_, _, _, .core [str! "a"], .last _ _ _ _ rfl⟩,
      ⟨[castEntry], ⟨_, _, by simp [castEnv, castNetModule], .here _, .inl rfl⟩, by simp,
        ⟨str! "n", _, 1, rfl, by simp [castEnv, castNetModule], by decide⟩⟩,
      .inr (.inr rfl), rfl,
      .inr ⟨str! "v", [0, 1], [str! "f.ll"], str! "f.ll",
        ⟨.cast (.gep (.glob (str! "v")) [.int 0, .int 1]), ⟨_, rfl, rfl⟩, .cast _ _ _ (.gep _ _ [0, 1] (.var _))⟩,
        rfl, by simp, by simp [castEnv], by
          rintro ⟨ms, hms, hh⟩
          cases hms
          simp at hh, rfl⟩⟩
  have : (addHandler castEnv (str! "net.core.a") (some (str! "h")) []).getByName (str! "g") (some (str! "net.core.a")) = none := by
    rfl
  rw [this] at hd
  cases hd

/-- **C130 (partial)** For tidy tables and patterns: if the generation of a snapshot of sysctl options ends without an error,
then the groups of the snapshot are the options of the tables that match the list, and the group of an option contains the
handler of the option, if there is source code for it, and the other functions that use the data of the option, and nothing
else. Missing: tables and patterns that are not tidy (`C132_fails`, `C133_fails`, `C51_fails_component`). -/
theorem C130_snapshot_partial (E : SysEnv) (hE : ∀ p, TidyModule (E.content p)) (syms : List Str)
    (hp : ∀ sym ∈ syms, TidyPattern sym) (s : FunGroups) (h : genSysctls E syms [] = .ok s) :
    (∀ g f d, s.getByName f g = some d → ∃ x, g = some x ∧ InSnapshot E syms x f d) ∧
    (∀ x f d, InSnapshot E syms x f d → ∃ d', s.getByName f (some x) = some d') := by
  have key : ∀ (syms : List Str) (s0 : FunGroups), (∀ sym ∈ syms, TidyPattern sym) → genSysctls E syms s0 = .ok s →
      Adds s0 s (fun g f d => ∃ x, g = some x ∧ InSnapshot E syms x f d) := by
    intro syms
    induction syms with
    | nil =>
      intro s0 _ h
      cases h
      refine adds_congr (adds_refl _) (fun g f d => ⟨False.elim, ?_⟩)
      rintro ⟨x, _, _, _, _, _, _, _, _, hmem, _⟩
      cases hmem
    | cons sym syms ih =>
      intro s0 hp h
      rw [genSysctls] at h
      cases h1 : genSymbol E sym s0 with
      | error x => rw [h1] at h; cases h
      | ok s1 =>
        rw [h1] at h
        refine adds_congr (adds_trans (adds_symbol hE (hp sym (by simp)) h1) (ih s1 (fun y hy => hp y (by simp [hy])) h))
          (fun g f d => ⟨?_, ?_⟩)
        · rintro (⟨x, a, b⟩ | ⟨x, a, b⟩)
          · exact ⟨x, a, inSnapshot_one.2 (.inl b)⟩
          · exact ⟨x, a, inSnapshot_one.2 (.inr b)⟩
        · rintro ⟨x, a, b⟩
          rcases inSnapshot_one.1 b with b | b
          · exact .inl ⟨x, a, b⟩
          · exact .inr ⟨x, a, b⟩
  have hk := key syms [] hp h
  refine ⟨fun g f d hd => ?_, fun x f d hd => (hk (some x) f).2 (.inr ⟨d, x, rfl, hd⟩)⟩
  rcases (hk g f).1 d hd with h' | h'
  · cases h'
  · exact h'

/-! ### C131 -/

/-- The statement of C131: an option that cannot be analysed does not prevent the snapshot of the others. -/
def C131_statement : Prop :=
  ∀ (E : SysEnv) (syms : List Str), (∀ p, TidyModule (E.content p)) → (∀ sym ∈ syms, TidyPattern sym) →
    ∃ s, genSysctls E syms [] = .ok s

private theorem tidy_nil : TidyModule [] where
  once := by decide
  defined := by rintro _ _ _ _ _ ⟨_, _, h, _⟩; cases h
  distinct := by rintro _ _ _ ⟨_, _, h, _⟩; cases h
  names := by rintro _ _ _ _ ⟨_, ⟨_, _, h, _⟩, _⟩; cases h
  plain := by rintro _ _ _ _ _ ⟨_, ⟨_, _, h, _⟩, _⟩; cases h
  children := by rintro _ _ _ _ _ _ ⟨_, ⟨_, _, h, _⟩, _⟩; cases h

private def emptyEnv : SysEnv := ⟨fun _ => some (str! "f.ll"), fun _ => [], fun _ => none, fun _ _ => []⟩

private theorem tidy_word {a b : Str} (ha : '.' ∉ a) (hb : '.' ∉ b) (hne : b ≠ [])
    (ho : hasText b (a ++ '.' :: b.dropLast) = false) : TidyPattern (a ++ '.' :: b) := by
  intro es last h hes
  have : joinChar '.' [a, b] = joinChar '.' (es ++ [last]) := h
  have he := join_inj (by simp) (by simp) (by simp [ha, hb]) hes this
  have hb' : [a] = es ∧ [b] = [last] := List.append_inj' (s₁ := [a]) (t₁ := [b]) he rfl
  obtain ⟨rfl, h2⟩ := hb'
  cases h2
  refine ⟨hne, ?_⟩
  rw [← hasText_iff]
  have : joinChar '.' ([a] ++ [[]]) ++ b.dropLast = a ++ '.' :: b.dropLast := by simp [joinChar]
  rw [this, ho]; simp

/-- The code does not satisfy C131: an option whose parent does not exist ends the generation with an exception. -/
theorem C131_fails : ¬ C131_statement := by
  intro h
  obtain ⟨s, hs⟩ := h emptyEnv [str! "kernel.a"] (fun _ => tidy_nil)
    (by intro sym hsym; simp only [List.mem_singleton] at hsym; subst hsym; exact tidy_word (a := str! "kernel") (b := str! "a") (by decide) (by decide) (by decide) (by decide))
  have : genSysctls emptyEnv [str! "kernel.a"] [] = .error .attribute := by rfl
  rw [this] at hs
  cases hs

private def unusedModule : KMod :=
  [(str! "net_core_table", some (.array [.struct [.glob (str! "n"), .glob (str! "v")]])), (str! "n", some (.text (str! "a"))),
   (str! "v", none)]

private def unusedEnv : SysEnv := ⟨fun _ => some (str! "f.ll"), fun _ => unusedModule, fun _ => none, fun _ _ => []⟩

/-- An option whose data is not used anywhere and an option with too few names end the generation, too. -/
theorem C131_fails_unused :
    genSysctls unusedEnv [str! "net.core.a"] [] = .error .notFound ∧ genSysctls unusedEnv [str! "net"] [] = .error .index :=
  ⟨rfl, rfl⟩

/-- **C131 (partial)** For tidy tables and patterns: if every option of the list is not supported, or has a table and the
data of all its options are used in some file, then the generation ends without an error. Missing: the other options
(`C131_fails`, `C131_fails_unused`). -/
theorem C131_total_partial (E : SysEnv) (hE : ∀ p, TidyModule (E.content p)) (syms : List Str)
    (hp : ∀ sym ∈ syms, TidyPattern sym)
    (hs : ∀ es last, joinChar '.' (es ++ [last]) ∈ syms → (∀ e ∈ es ++ [last], '.' ∉ e) →
      (∃ e, (es ++ [last]).head? = some e ∧ e ∉ [str! "kernel", str! "vm", str! "fs", str! "debug", str! "dev", str! "net"]) ∨
      ∃ p root path elems, TableFor E (es ++ [last]) p root path ∧ TableAt (E.content p) root path elems ∧
        ∀ n c v is, TableEntry (E.content p) root path n c → SysctlMatch n last → EntryData c v is →
          ∃ ms, E.modsUsing v = some ms) :
    ∀ s, ∃ s', genSysctls E syms s = .ok s' := by
  induction syms with
  | nil => exact fun s => ⟨s, rfl⟩
  | cons sym syms ih =>
    intro s
    obtain ⟨es, last, hsym, hes⟩ := split_last sym
    have hne : es ++ [last] ≠ [] := by simp
    have one : ∃ s1, genSymbol E sym s = .ok s1 := by
      rcases hs es last (by simp [hsym]) hes with ⟨e, he, hn⟩ | ⟨p, root, path, elems, ht, hta, hu⟩
      · have : sysctlModule E sym = .error .notFound := by
          unfold sysctlModule
          rw [hsym, splitChar_join '.' _ hne hes]
          cases hl : es ++ [last] with
          | nil => exact absurd hl hne
          | cons e0 es0 =>
            rw [hl] at he
            cases he
            unfold firstTable
            dsimp only
            rw [if_neg (fun h => hn (by simp at h ⊢; tauto)), if_neg (fun h => hn (by simp [h]))]
        unfold genSymbol
        rw [this]
        exact ⟨s, rfl⟩
      · obtain ⟨hd, hr⟩ := tableFor_root hE ht
        have hm := (C133_hierarchy_partial E hE _ hne hes p _).2 ⟨root, path, ht, rfl⟩
        obtain ⟨hlast, ho⟩ := hp sym (by simp) es last hsym hes
        obtain ⟨r, hr'⟩ := parse_total (join_prefix es) (hes last (by simp)) hlast ho [] [] (entryName_total (hE p) hta)
        have hpt : parseTable (E.content p) (tableText root path) sym [] = .ok r := by
          unfold parseTable
          rw [tableOps_of (hE p).once hd hr hta, hsym, join_last]
          exact hr'
        obtain ⟨m, names⟩ := r
        obtain ⟨h1, h2⟩ := parseTable_spec (hE p) hd hr (join_prefix es) (hes last (by simp)) hlast ho
          (by rw [← join_last, ← hsym]; exact hpt)
        have all : ∀ (ns : List Str) (s : FunGroups), (∀ n ∈ ns, n ∈ names) →
            ∃ s', genOptions E (E.content p) (tableText root path) ns m s = .ok s' := by
          intro ns
          induction ns with
          | nil => exact fun s _ => ⟨s, rfl⟩
          | cons n ns ihn =>
            intro s hns
            obtain ⟨n', c, a, b, e⟩ := (h1 n).1 (hns n (by simp))
            have hg := (h2 n c).2 ⟨n', a, b, e⟩
            have hgs : getSysctl (E.content p) (tableText root path) n m = .ok (m, some c) := by unfold getSysctl; rw [hg]
            simp only [genOptions, getProcFun, getVarAt, hgs]
            cases hv : varAt c 1 with
            | none => exact ihn _ (fun x hx => hns x (by simp [hx]))
            | some data =>
              have hmatch : SysctlMatch n' last := by
                have := (hE p).names root path n' c a
                rwa [cMatches_eq n' last this.1, pyMatches_iff n' last this.2] at b
              obtain ⟨ms, hms⟩ := hu n' c data.1 data.2 a hmatch ((varAt_iff (hE p) a 1 (.inl rfl) _ _).1 hv)
              simp only [hms]
              exact ihn _ (fun x hx => hns x (by simp [hx]))
        unfold genSymbol
        rw [hsym, hm]
        rw [hsym] at hpt
        simp only [hpt]
        exact all names s (fun _ h => h)
    obtain ⟨s1, h1⟩ := one
    rw [genSysctls, h1]
    exact ih (fun y hy => hp y (by simp [hy])) (fun es last h => hs es last (by simp [h])) s1

/-! ### An example that meets the hypotheses -/

private def kernEntry : KConst :=
  .struct [.glob (str! "s1"), .other, .int 0, .int 365, .glob (str! "kern_table"), .other]

private def panicEntry : KConst :=
  .struct [.glob (str! "s2"), .gep (.glob (str! "limits")) [.int 0, .int 1], .int 4, .int 420, .other, .func (str! "proc_dointvec")]

private def exModule : KMod :=
  [(str! "sysctl_base_table", some (.array [kernEntry])), (str! "kern_table", some (.array [panicEntry, .other])),
   (str! "s1", some (.text (str! "kernel" ++ [Char.ofNat 0]))), (str! "s2", some (.text (str! "panic" ++ [Char.ofNat 0]))),
   (str! "limits", none)]

private def exEnv : SysEnv :=
  ⟨fun n => if n = str! "proc_dointvec" then none else some (str! "kernel/sysctl.ll"), fun _ => exModule,
   fun _ => some [str! "kernel/panic.ll"], fun _ data => if data = (str! "limits", [0, 1]) then [str! "panic", str! "proc_dointvec"] else []⟩

/-- Elements that are not entries. -/
private def Flat (c : KConst) : Prop := ∀ ms, c ≠ .struct ms ∧ c ≠ .array ms

private theorem flat_inside {c d : KConst} {path : List Nat} (hc : Flat c) (h : Inside c path d) : d = c := by
  cases h with
  | here => rfl
  | struct ops i c' _ is _ _ => exact absurd rfl (hc ops).1
  | array ops i c' _ is _ _ => exact absurd rfl (hc ops).2

private theorem flat_members : ∀ c ∈ [kernEntry, panicEntry], ∀ ms, c = .struct ms → ∀ x ∈ ms, Flat x := by
  intro c hc ms hms x hx ms'
  simp only [List.mem_cons, List.not_mem_nil, or_false] at hc
  rcases hc with rfl | rfl
  all_goals
    cases hms
    simp only [List.mem_cons, List.not_mem_nil, or_false] at hx
    rcases hx with rfl | rfl | rfl | rfl | rfl | rfl <;> exact ⟨by simp, by simp⟩

private theorem ex_tables {root : Str} {path : List Nat} {elems : List KConst} (h : TableAt exModule root path elems) :
    elems = [kernEntry] ∨ elems = [panicEntry, .other] ∨ ∀ x ∈ elems, Flat x := by
  obtain ⟨c, d, h1, h2, h3⟩ := h
  have h1' : c = .array [kernEntry] ∨ c = .array [panicEntry, .other] ∨ Flat c := by
    simp only [exModule, List.mem_cons, Prod.mk.injEq, Option.some.injEq, List.not_mem_nil, or_false] at h1
    rcases h1 with ⟨_, rfl⟩ | ⟨_, rfl⟩ | ⟨_, rfl⟩ | ⟨_, rfl⟩ | ⟨_, h⟩
    · exact .inl rfl
    · exact .inr (.inl rfl)
    · exact .inr (.inr fun _ => ⟨by simp, by simp⟩)
    · exact .inr (.inr fun _ => ⟨by simp, by simp⟩)
    · cases h
  have deep : ∀ (ops : List KConst), (∀ x ∈ ops, x = kernEntry ∨ x = panicEntry ∨ Flat x) → ∀ (i : Nat) c' is, ops[i]? = some c' →
      Inside c' is d → ∀ x ∈ elems, Flat x := by
    intro ops hops i c' is hi hin
    rcases hops c' (List.mem_of_getElem? hi) with he | he | hf
    rotate_right
    · have := flat_inside hf hin
      subst this
      rcases h3 with rfl | rfl
      · exact absurd rfl (hf elems).2
      · exact absurd rfl (hf elems).1
    all_goals
      cases hin with
      | here =>
        rcases h3 with h3 | h3
        · rw [h3] at he; cases he
        · exact flat_members d (by simp [he]) elems h3
      | array ops' j c'' _ is' hj hin' => cases he
      | struct ops' j c'' _ is' hj hin' =>
        have hf := flat_members (.struct ops') (by simp [he]) ops' rfl c'' (List.mem_of_getElem? hj)
        have := flat_inside hf hin'
        subst this
        rcases h3 with rfl | rfl
        · exact absurd rfl (hf elems).2
        · exact absurd rfl (hf elems).1
  rcases h1' with rfl | rfl | hf
  · cases h2 with
    | here => rcases h3 with h3 | h3 <;> cases h3; exact .inl rfl
    | array ops i c' _ is hi hin => exact .inr (.inr (deep _ (by simp) i c' is hi hin))
  · cases h2 with
    | here => rcases h3 with h3 | h3 <;> cases h3; exact .inr (.inl rfl)
    | array ops i c' _ is hi hin =>
      refine .inr (.inr (deep _ ?_ i c' is hi hin))
      intro x hx
      simp only [List.mem_cons, List.not_mem_nil, or_false] at hx
      rcases hx with rfl | rfl
      · exact .inr (.inl rfl)
      · exact .inr (.inr fun _ => ⟨by simp, by simp⟩)
  · have := flat_inside hf h2
    subst this
    rcases h3 with rfl | rfl
    · exact absurd rfl (hf elems).2
    · exact absurd rfl (hf elems).1

private theorem ex_names (n : Str) : (EntryName exModule kernEntry n ↔ n = str! "kernel") ∧
    (EntryName exModule panicEntry n ↔ n = str! "panic") := by
  have hM : (exModule.map Prod.fst).Nodup := by decide
  rw [← entryName_iff hM, ← entryName_iff hM]
  have h1 : entryName exModule kernEntry = .ok (some (str! "kernel")) := by rfl
  have h2 : entryName exModule panicEntry = .ok (some (str! "panic")) := by rfl
  rw [h1, h2]
  simp [eq_comm]

private theorem ex_entries {root : Str} {path : List Nat} {n : Str} {c : KConst} (h : TableEntry exModule root path n c) :
    (c = kernEntry ∧ n = str! "kernel") ∨ (c = panicEntry ∧ n = str! "panic") := by
  obtain ⟨elems, h1, h2, h3⟩ := h
  have nf : Flat c → False := by
    obtain ⟨g, rest, k, rfl, _⟩ := h3
    intro hf
    exact (hf _).1 rfl
  rcases ex_tables h1 with rfl | rfl | hf
  · simp only [List.mem_singleton] at h2
    subst h2
    exact .inl ⟨rfl, (ex_names n).1.1 h3⟩
  · simp only [List.mem_cons, List.not_mem_nil, or_false] at h2
    rcases h2 with rfl | rfl
    · exact .inr ⟨rfl, (ex_names n).2.1 h3⟩
    · exact (nf fun _ => ⟨by simp, by simp⟩).elim
  · exact (nf (hf c h2)).elim

private theorem ex_tidy : TidyModule exModule where
  once := by decide
  defined := by
    intro root path elems g rest h hm
    rcases ex_tables h with rfl | rfl | hf
    · simp only [List.mem_singleton, kernEntry, KConst.struct.injEq, List.cons.injEq, KConst.glob.injEq] at hm
      rw [hm.1]; exact ⟨.text (str! "kernel" ++ [Char.ofNat 0]), by simp [exModule]⟩
    · simp only [List.mem_cons, List.not_mem_nil, or_false, panicEntry, KConst.struct.injEq, List.cons.injEq, KConst.glob.injEq,
        reduceCtorEq] at hm
      rw [hm.1]; exact ⟨.text (str! "panic" ++ [Char.ofNat 0]), by simp [exModule]⟩
    · exact absurd rfl ((hf _ hm) _).1
  distinct := by
    intro root path elems h
    rcases ex_tables h with rfl | rfl | hf
    · simp
    · rw [List.pairwise_pair]
      rintro n _ ⟨_, _, _, h', _⟩
      cases h'
    · refine List.pairwise_of_forall_mem_list ?_
      rintro a ha b _ n ⟨_, _, _, rfl, _⟩
      exact absurd rfl ((hf _ ha) _).1
  names := by
    intro root path n c h
    rcases ex_entries h with ⟨_, rfl⟩ | ⟨_, rfl⟩
    · exact ⟨by decide, by rintro ⟨s, hs⟩; cases hs⟩
    · exact ⟨by decide, by rintro ⟨s, hs⟩; cases hs⟩
  plain := by
    intro root path n c d h hm ha
    rcases ex_entries h with ⟨rfl, _⟩ | ⟨rfl, _⟩
    all_goals
      rcases hm with ⟨ms, h1, h2⟩ | ⟨ms, h1, h2⟩
      all_goals
        cases h1
        simp only [List.getElem?_cons_succ, List.getElem?_cons_zero, Option.some.injEq] at h2
        subst h2
        obtain ⟨v, is, ha⟩ := ha
        first
        | cases ha; done
        | exact .inl ⟨_, .inl rfl⟩
        | exact .inr ⟨_, _, .inl rfl⟩
  children := by
    rintro root path n c v is h ⟨d, ⟨ms, h1, h2⟩, ha⟩
    rcases ex_entries h with ⟨rfl, _⟩ | ⟨rfl, _⟩
    · cases h1
      simp only [List.getElem?_cons_succ, List.getElem?_cons_zero, Option.some.injEq] at h2
      subst h2
      cases ha
      exact ⟨by decide, by decide, by simp⟩
    · cases h1
      simp only [List.getElem?_cons_succ, List.getElem?_cons_zero, Option.some.injEq] at h2
      subst h2
      cases ha

/-- The hypotheses of C130, C131, C132 and C133 are met: the option `kernel.panic` has the handler `proc_dointvec` without source
code, and its data is used by the function `panic`. -/
example : (∀ p, TidyModule (exEnv.content p)) ∧ TidyPattern (str! "kernel.*") ∧
    TableFor exEnv [str! "kernel", str! "*"] (str! "kernel/sysctl.ll") (str! "kern_table") [] ∧
    genSysctls exEnv [str! "kernel.*", str! "unknown"] [] =
      .ok [(some (str! "kernel.panic"), [(str! "panic", ⟨some (str! "kernel/panic.ll"), some (str! "limits"),
        some (str! "using data variable \"limits\"")⟩)])] ∧
    InSnapshot exEnv [str! "kernel.*", str! "unknown"] (str! "kernel.panic") (str! "panic")
      ⟨some (str! "kernel/panic.ll"), some (str! "limits"), some (str! "using data variable \"limits\"")⟩ := by
  have ht : TableFor exEnv [str! "kernel", str! "*"] (str! "kernel/sysctl.ll") (str! "kern_table") [] :=
    ⟨_, _, _, .base _ _ (by decide), .step _ _ _ _ _ (str! "kernel/sysctl.ll") kernEntry (str! "kern_table") [] _ _ _ rfl
      ⟨[kernEntry], ⟨_, _, by simp [exEnv, exModule], .here _, .inl rfl⟩, by simp, (ex_names _).1.2 rfl⟩
      ⟨_, ⟨_, rfl, rfl⟩, .var _⟩ (by simp) (.last _ _ _ _ rfl)⟩
  refine ⟨fun _ => ex_tidy, tidy_word (a := str! "kernel") (b := str! "*") (by decide) (by decide) (by decide) (by decide), ht, by rfl,
    [str! "kernel"], str! "*", _, _, _, str! "panic", panicEntry, by simp [joinChar], by decide, ht,
    ⟨[panicEntry, .other], ⟨_, _, by simp [exEnv, exModule], .here _, .inl rfl⟩, by simp, (ex_names _).2.2 rfl⟩, .inl rfl, by rfl, ?_⟩
  refine .inr ⟨str! "limits", [0, 1], _, _, ⟨_, ⟨_, rfl, rfl⟩, .gep _ _ [0, 1] (.var _)⟩, rfl, List.mem_singleton.2 rfl,
    by decide, ?_, rfl⟩
  rintro ⟨ms, h1, h2⟩
  cases h1
  cases h2

end DK
