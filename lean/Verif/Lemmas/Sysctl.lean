import Verif.Spec.Sysctl
import Verif.Props.Text
import Verif.Props.SyntaxDiff
import Verif.Lemmas.Snapshot

set_option autoImplicit false

namespace DK
open Spec

/-! ### Texts -/

theorem trimNul_iff (s n : Str) :
    trimNul s = n ↔ ∃ k, s = n ++ List.replicate k (Char.ofNat 0) ∧ n.getLast? ≠ some (Char.ofNat 0) := by
  have key : ∀ r n : Str, r.dropWhile (fun c => decide (c = Char.ofNat 0)) = n ↔
      ∃ k, r = List.replicate k (Char.ofNat 0) ++ n ∧ n.head? ≠ some (Char.ofNat 0) := by
    intro r
    induction r with
    | nil =>
      intro n
      constructor
      · rintro rfl; exact ⟨0, by simp⟩
      · rintro ⟨k, h, _⟩
        have := congrArg List.length h
        simp at this
        rw [List.dropWhile_nil]
        exact (List.eq_nil_of_length_eq_zero (by omega)).symm
    | cons x r ih =>
      intro n
      by_cases hx : x = Char.ofNat 0
      · rw [List.dropWhile_cons, if_pos (by simpa using hx), ih]
        constructor
        · rintro ⟨k, rfl, h⟩
          exact ⟨k + 1, by rw [List.replicate_succ, hx]; rfl, h⟩
        · rintro ⟨k, h, h2⟩
          cases k with
          | zero =>
            simp only [List.replicate_zero, List.nil_append] at h
            subst h
            exact absurd (by simp [hx]) h2
          | succ k =>
            rw [List.replicate_succ, List.cons_append] at h
            cases h
            exact ⟨k, rfl, h2⟩
      · rw [List.dropWhile_cons, if_neg (by simpa using hx)]
        constructor
        · rintro rfl; exact ⟨0, by simp, by simpa using hx⟩
        · rintro ⟨k, h, h2⟩
          cases k with
          | zero => exact h
          | succ k =>
            rw [List.replicate_succ, List.cons_append] at h
            cases h
            exact absurd rfl hx
  unfold trimNul
  have := key s.reverse n.reverse
  rw [← List.reverse_eq_iff] at this
  rw [this]
  refine exists_congr fun k => and_congr ?_ ?_
  · rw [List.reverse_eq_iff]; simp
  · simp

theorem stoi_dec (i : Nat) : stoi (Nat.toDigits 10 i) = some i := by
  have all : ∀ l : Str, (∀ c ∈ l, c.isDigit = true) → l.takeWhile Char.isDigit = l := by
    intro l
    induction l with
    | nil => intro _; rfl
    | cons x l ih =>
      intro h
      rw [List.takeWhile_cons, if_pos (h x (by simp)), ih (fun c hc => h c (by simp [hc]))]
  have h1 : (Nat.toDigits 10 i).takeWhile Char.isDigit = Nat.toDigits 10 i :=
    all _ (fun c hc => Nat.isDigit_of_mem_toDigits (by decide) (by decide) hc)
  unfold stoi
  simp only [h1, if_neg Nat.toDigits_ne_nil]
  congr 1
  exact Nat.ofDigitChars_ten_toDigits

private theorem dec_noDot (i : Nat) : '.' ∉ Nat.toDigits 10 i := fun h =>
  absurd (Nat.isDigit_of_mem_toDigits (b := 10) (by decide) (by decide) h) (by decide)

theorem split_tableText (root : Str) (path : List Nat) (h : '.' ∉ root) :
    splitChar '.' (tableText root path) = root :: path.map (Nat.toDigits 10) := by
  unfold tableText
  induction path generalizing root with
  | nil => simpa using splitChar_none '.' root h
  | cons i path ih =>
    rw [List.flatMap_cons, List.cons_append, splitChar_append _ _ _ h, ih _ (dec_noDot i), List.map_cons]

theorem getlines_tableText (root : Str) (path : List Nat) (h : '.' ∉ root) (hne : root ≠ []) :
    getlines '.' (tableText root path) = root :: path.map (Nat.toDigits 10) := by
  unfold getlines
  simp only [split_tableText root path h]
  rw [if_neg]
  intro hl
  have := List.mem_of_getLast? hl
  rcases List.mem_cons.1 this with h' | h'
  · exact hne h'.symm
  · obtain ⟨i, _, hi⟩ := List.mem_map.1 h'
    exact Nat.toDigits_ne_nil hi

theorem join_last (es : List Str) (x : Str) : joinChar '.' (es ++ [x]) = joinChar '.' (es ++ [[]]) ++ x := by
  induction es with
  | nil => rfl
  | cons e es ih =>
    cases es with
    | nil => simp [joinChar]
    | cons e' es =>
      simp only [List.cons_append, joinChar] at ih ⊢
      rw [ih]; simp

theorem join_prefix (es : List Str) :
    joinChar '.' (es ++ [[]]) = [] ∨ (joinChar '.' (es ++ [[]])).getLast? = some '.' := by
  cases es with
  | nil => left; rfl
  | cons e es =>
    right
    induction es generalizing e with
    | nil => simp [joinChar]
    | cons e' es ih =>
      have := ih e'
      simp only [List.cons_append, joinChar] at this ⊢
      rw [List.getLast?_append, List.getLast?_cons, this]; simp

/-! ### Tables -/

theorem followTable_dec (c : KConst) (path : List Nat) (d : KConst) :
    followTable c (path.map (Nat.toDigits 10)) = .ok d ↔ Inside c path d := by
  induction path generalizing c with
  | nil =>
    simp only [List.map_nil, followTable]
    constructor
    · intro h; cases h; exact .here _
    · intro h; cases h; rfl
  | cons i path ih =>
    simp only [List.map_cons, followTable, stoi_dec]
    constructor
    · intro h
      cases hc : c.ops[i]? with
      | none => rw [hc] at h; cases h
      | some c' =>
        rw [hc] at h
        have h' := (ih c').1 h
        cases c with
        | struct ops => exact .struct ops i c' d path hc h'
        | array ops => exact .array ops i c' d path hc h'
        | _ => simp [KConst.ops] at hc
    · intro h
      cases h with
      | struct ops _ c' _ _ hc h' =>
        have hc' : (KConst.struct ops).ops[i]? = some c' := hc
        rw [hc']
        exact (ih c').2 h'
      | array ops _ c' _ _ hc h' =>
        have hc' : (KConst.array ops).ops[i]? = some c' := hc
        rw [hc']
        exact (ih c').2 h'

theorem tableOps_of {M : KMod} (hM : (M.map Prod.fst).Nodup) {root : Str} {path : List Nat} {elems : List KConst}
    (hd : '.' ∉ root) (hne : root ≠ []) (h : TableAt M root path elems) : tableOps M (tableText root path) = .ok elems := by
  obtain ⟨c, d, h1, h2, h3⟩ := h
  unfold tableOps
  rw [getlines_tableText root path hd hne]
  simp only [Dict.mem_get? hM h1, (followTable_dec c path d).2 h2]
  rcases h3 with rfl | rfl <;> rfl

theorem tableOps_mem {M : KMod} {root : Str} {path : List Nat} {elems : List KConst} {c : KConst}
    (hd : '.' ∉ root) (hne : root ≠ []) (h : tableOps M (tableText root path) = .ok elems) (hc : c ∈ elems) :
    TableAt M root path elems := by
  unfold tableOps at h
  rw [getlines_tableText root path hd hne] at h
  simp only at h
  split at h
  · cases h; exact absurd hc (by simp)
  · cases h
  · next c0 h0 =>
    split at h
    · next d hf =>
      cases h
      refine ⟨c0, d, Dict.get?_mem h0, (followTable_dec _ _ _).1 hf, ?_⟩
      cases d with
      | struct ops => exact .inr rfl
      | array ops => exact .inl rfl
      | _ => simp [KConst.ops] at hc
    · cases h

theorem entryName_iff {M : KMod} (hM : (M.map Prod.fst).Nodup) (c : KConst) (n : Str) :
    entryName M c = .ok (some n) ↔ EntryName M c n := by
  constructor
  · intro h
    unfold entryName at h
    split at h
    · next g rest =>
      split at h
      · next s hs =>
        cases h
        obtain ⟨k, h1, h2⟩ := (trimNul_iff s _).1 rfl
        exact ⟨g, rest, k, rfl, by rw [← h1]; exact Dict.get?_mem hs, h2⟩
      · cases h
      · cases h
    · cases h
  · rintro ⟨g, rest, k, rfl, h1, h2⟩
    simp only [entryName, Dict.mem_get? hM h1]
    rw [(trimNul_iff _ n).2 ⟨k, rfl, h2⟩]

/-- The entries that match. -/
def picked (M : KMod) (last : Str) : List KConst → List (Str × KConst)
  | [] => []
  | c :: cs =>
    match entryName M c with
    | .ok (some n) => if cMatches n last then (n, c) :: picked M last cs else picked M last cs
    | _ => picked M last cs

theorem mem_picked {M : KMod} (hM : (M.map Prod.fst).Nodup) {last : Str} {cs : List KConst} {n : Str} {c : KConst} :
    (n, c) ∈ picked M last cs ↔ c ∈ cs ∧ EntryName M c n ∧ cMatches n last = true := by
  induction cs with
  | nil => simp [picked]
  | cons c' cs ih =>
    rw [picked]
    split
    · next n' hn' =>
      have h' := (entryName_iff hM c' n').1 hn'
      by_cases hm : cMatches n' last = true
      · rw [if_pos hm, List.mem_cons, ih, List.mem_cons]
        constructor
        · rintro (h | ⟨h1, h2⟩)
          · cases h; exact ⟨.inl rfl, h', hm⟩
          · exact ⟨.inr h1, h2⟩
        · rintro ⟨rfl | h1, h2, h3⟩
          · left
            have := (entryName_iff hM c n).2 h2
            rw [hn'] at this; cases this; rfl
          · exact .inr ⟨h1, h2, h3⟩
      · rw [if_neg hm, ih, List.mem_cons]
        constructor
        · rintro ⟨h1, h2⟩; exact ⟨.inr h1, h2⟩
        · rintro ⟨rfl | h1, h2, h3⟩
          · have := (entryName_iff hM c n).2 h2
            rw [hn'] at this; cases this; exact absurd h3 hm
          · exact ⟨h1, h2, h3⟩
    · next hne =>
      rw [ih, List.mem_cons]
      constructor
      · rintro ⟨h1, h2⟩; exact ⟨.inr h1, h2⟩
      · rintro ⟨rfl | h1, h2, h3⟩
        · exact absurd ((entryName_iff hM c n).2 h2) (hne n)
        · exact ⟨h1, h2, h3⟩

theorem picked_nodup {M : KMod} (hM : (M.map Prod.fst).Nodup) {last : Str} {cs : List KConst}
    (h : cs.Pairwise (fun a b => ∀ n, EntryName M a n → ¬ EntryName M b n)) : ((picked M last cs).map Prod.fst).Nodup := by
  induction cs with
  | nil => simp [picked]
  | cons c cs ih =>
    rw [List.pairwise_cons] at h
    rw [picked]
    split
    · next n hn =>
      split
      · rw [List.map_cons, List.nodup_cons]
        refine ⟨fun hmem => ?_, ih h.2⟩
        obtain ⟨⟨n', c'⟩, h1, h2⟩ := List.mem_map.1 hmem
        simp only at h2
        subst h2
        obtain ⟨h3, h4, _⟩ := (mem_picked hM).1 h1
        exact h.1 c' h3 _ ((entryName_iff hM c _).1 hn) h4
      · exact ih h.2
    · exact ih h.2

theorem parseLoop_ok {M : KMod} {pre last : Str} (hp : pre = [] ∨ pre.getLast? = some '.') (hl : '.' ∉ last)
    (hne : last ≠ []) (ho : ¬ Occurs last (pre ++ last.dropLast)) {cs : List KConst} {m m' : SysMap} {found found' : List Str}
    (h : parseLoop M (pre ++ last) cs m found = .ok (m', found')) :
    found' = found ++ (picked M last cs).map (fun q => pre ++ q.1) ∧
      m' = (picked M last cs).foldl (fun m q => Dict.set m (pre ++ q.1) q.2) m := by
  induction cs generalizing m found with
  | nil => cases h; simp [picked]
  | cons c cs ih =>
    rw [parseLoop] at h
    rw [picked]
    cases hn : entryName M c with
    | error x => rw [hn] at h; cases h
    | ok o =>
      rw [hn] at h
      cases o with
      | none => exact ih h
      | some n =>
        simp only [getlines_last pre last hp hl hne] at h
        by_cases hm : cMatches n last = true
        · rw [if_pos hm, findAndReplace_suffix pre last n hne ho] at h
          simp only [if_pos hm]
          obtain ⟨h1, h2⟩ := ih h
          exact ⟨by rw [h1]; simp, by rw [h2]; rfl⟩
        · rw [if_neg hm] at h
          simp only [if_neg hm]
          exact ih h

theorem foldSet_get {pre : Str} {ps : List (Str × KConst)} {m : SysMap} {x : Str} {c : KConst}
    (h : Dict.get? (ps.foldl (fun m q => Dict.set m (pre ++ q.1) q.2) m) x = some c) :
    Dict.get? m x = some c ∨ ∃ n, (n, c) ∈ ps ∧ x = pre ++ n := by
  induction ps generalizing m with
  | nil => exact .inl h
  | cons q ps ih =>
    obtain ⟨n, d⟩ := q
    rcases ih h with h' | ⟨n', h1, h2⟩
    · simp only [Dict.get?_set] at h'
      split at h'
      · next hx => cases h'; exact .inr ⟨n, by simp, hx⟩
      · exact .inl h'
    · exact .inr ⟨n', by simp [h1], h2⟩

theorem get_foldSet {pre : Str} {ps : List (Str × KConst)} (hn : (ps.map Prod.fst).Nodup) {m : SysMap} {n : Str} {c : KConst}
    (h : (n, c) ∈ ps) : Dict.get? (ps.foldl (fun m q => Dict.set m (pre ++ q.1) q.2) m) (pre ++ n) = some c := by
  induction ps generalizing m with
  | nil => cases h
  | cons q ps ih =>
    rw [List.map_cons, List.nodup_cons] at hn
    rcases List.mem_cons.1 h with rfl | h
    · rw [List.foldl_cons]
      have keep : ∀ (l : List (Str × KConst)) (m : SysMap), n ∉ l.map Prod.fst →
          Dict.get? (l.foldl (fun m q => Dict.set m (pre ++ q.1) q.2) m) (pre ++ n) = Dict.get? m (pre ++ n) := by
        intro l
        induction l with
        | nil => intro m _; rfl
        | cons r l ihl =>
          intro m hm
          rw [List.map_cons, List.mem_cons, not_or] at hm
          rw [List.foldl_cons, ihl _ hm.2, Dict.get?_set_ne]
          intro he
          exact hm.1 (List.append_cancel_left he)
      rw [keep ps _ hn.1, Dict.get?_set_self]
    · exact ih hn.2 h

/-! ### Addresses -/

theorem gepInts_iff (cs : List KConst) (is : List Nat) : gepInts cs = some is ↔ cs = is.map .int := by
  induction cs generalizing is with
  | nil =>
    simp only [gepInts, Option.some.injEq]
    constructor
    · rintro rfl; rfl
    · intro h; exact (List.map_eq_nil_iff.1 h.symm).symm
  | cons c cs ih =>
    cases c with
    | int n =>
      simp only [gepInts, Option.map_eq_some_iff]
      constructor
      · rintro ⟨js, h, rfl⟩; rw [(ih js).1 h]; rfl
      · intro h
        cases is with
        | nil => cases h
        | cons j js =>
          simp only [List.map_cons, List.cons.injEq, KConst.int.injEq] at h
          exact ⟨js, (ih js).2 h.2, by rw [h.1]⟩
    | _ =>
      simp only [gepInts, reduceCtorEq, false_iff]
      intro h
      cases is with
      | nil => cases h
      | cons j js => simp at h

theorem castVar_address {is js : List Nat} {c : KConst} {v : Str} (h : castVar is c = some (v, js)) :
    js = is ∧ Address c v [] := by
  unfold castVar at h
  split at h
  · cases h; exact ⟨rfl, .cast _ _ _ (.var _)⟩
  · cases h; exact ⟨rfl, .var _⟩
  · cases h

theorem addressOf_address {c : KConst} {v : Str} {is : List Nat} (h : addressOf c = some (v, is)) : Address c v is := by
  unfold addressOf at h
  split at h
  · split at h
    · next ns hns =>
      obtain ⟨rfl, h2⟩ := castVar_address h
      rw [(gepInts_iff _ _).1 hns]
      exact .gep _ _ _ h2
    · cases h
  · obtain ⟨rfl, h2⟩ := castVar_address h
    exact h2

theorem address_addressOf {c : KConst} {v : Str} {is : List Nat} (hp : PlainAddress c) (h : Address c v is) :
    addressOf c = some (v, is) := by
  rcases hp with ⟨w, rfl | rfl⟩ | ⟨w, js, rfl | rfl⟩
  · cases h; rfl
  · cases h with
    | cast _ _ _ h => cases h; rfl
  · cases h with
    | gep _ _ _ h =>
      cases h
      simp only [addressOf, (gepInts_iff _ _).2 rfl, castVar]
  · cases h with
    | gep _ _ _ h =>
      cases h with
      | cast _ _ _ h =>
        cases h
        simp only [addressOf, (gepInts_iff _ _).2 rfl, castVar]

end DK
