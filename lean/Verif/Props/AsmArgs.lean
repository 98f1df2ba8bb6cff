import Verif.Model.SourceLines
import Verif.Spec.SourceLines
import Verif.Props.Text
import Verif.Props.Calls

/-! Operands of inline assembly in the source: C174 to C176. -/

set_option autoImplicit false

namespace DK
open Spec

/-! ### Parsing of operands -/

private theorem balanced_app {a b : Str} (ha : Balanced a) (hb : Balanced b) : Balanced (a ++ b) := by
  induction ha with
  | nil => exact hb
  | char c s h1 h2 _ ih => exact .char c _ h1 h2 ih
  | paren w s hw _ _ ih2 =>
    have := Balanced.paren w _ hw ih2
    simpa using this

private theorem balanced_plain : ∀ {s : Str}, (∀ c ∈ s, c ≠ '(' ∧ c ≠ ')') → Balanced s
  | [], _ => .nil
  | c :: cs, h => .char c cs (h c (by simp)).1 (h c (by simp)).2 (balanced_plain fun d hd => h d (by simp [hd]))

private theorem split_here (c : Char) : ∀ (pre rest : Str), c ∉ pre → splitAtChar c (pre ++ c :: rest) = some (pre, rest)
  | [], rest, _ => by simp [splitAtChar]
  | x :: xs, rest, h => by
    have hx : x ≠ c := fun e => h (by simp [e])
    rw [List.cons_append, splitAtChar, if_neg hx, split_here c xs rest (fun hc => h (by simp [hc]))]
    rfl

private theorem split_none (c : Char) : ∀ (s : Str), c ∉ s → splitAtChar c s = none
  | [], _ => rfl
  | x :: xs, h => by
    rw [splitAtChar, if_neg (fun e => h (by simp [e])), split_none c xs (fun hc => h (by simp [hc]))]
    rfl

private theorem parse_one (k : Nat) (pre e rest : Str) (hp : '(' ∉ pre) (he : Balanced e) :
    parseAsmArgs (k + 1) (pre ++ '(' :: (e ++ ')' :: rest)) = e :: parseAsmArgs k (rest.drop 1) := by
  have hb : bracketLoop ('(' :: (e ++ ')' :: rest)) 0 = '(' :: (e ++ [')']) := toMatchingBracket_balanced [] e rest he
  rw [parseAsmArgs, split_here '(' pre _ hp]
  dsimp only
  rw [hb]
  have h1 : List.dropLast (List.drop 1 ('(' :: (e ++ [')']))) = e := by
    rw [List.drop_one, List.tail_cons, List.dropLast_concat]
  have h2 : List.drop (('(' :: (e ++ [')'])).length + 1) ('(' :: (e ++ ')' :: rest)) = rest.drop 1 := by
    have : ('(' :: (e ++ ')' :: rest)) = ('(' :: (e ++ [')'])) ++ rest := by simp
    rw [this, List.drop_length_add_append]
  rw [h1, h2]

private theorem parse_none (k : Nat) (s : Str) (h : '(' ∉ s) : parseAsmArgs k s = [] := by
  cases k with
  | zero => rfl
  | succ k => rw [parseAsmArgs, split_none _ _ h]

private theorem parse_ops : ∀ (ops : List AsmOp) (k : Nat) (pre post : Str), '(' ∉ pre → PlainOps ops → ops ≠ [] →
    parseAsmArgs (k + ops.length) (pre ++ opsText ops ++ post) = ops.map AsmOp.expr ++ parseAsmArgs k (post.drop 1)
  | [], _, _, _, _, _, h => absurd rfl h
  | [o], k, pre, post, hp, ho, _ => by
    obtain ⟨h1, h2⟩ := ho o (by simp)
    have := parse_one k (pre ++ '"' :: (o.constr ++ ['"'])) o.expr post (by
      intro h
      rcases List.mem_append.1 h with h | h
      · exact hp h
      · rcases List.mem_cons.1 h with h | h
        · cases h
        · rcases List.mem_append.1 h with h | h
          · exact (h1 _ h).2.1 rfl
          · simp at h) h2.1
    simpa [opsText, AsmOp.text] using this
  | o :: o' :: os, k, pre, post, hp, ho, _ => by
    obtain ⟨h1, h2⟩ := ho o (by simp)
    have := parse_one (k + (o' :: os).length) (pre ++ '"' :: (o.constr ++ ['"'])) o.expr (str! ", " ++ opsText (o' :: os) ++ post) (by
      intro h
      rcases List.mem_append.1 h with h | h
      · exact hp h
      · rcases List.mem_cons.1 h with h | h
        · cases h
        · rcases List.mem_append.1 h with h | h
          · exact (h1 _ h).2.1 rfl
          · simp at h) h2.1
    have ih := parse_ops (o' :: os) k [' '] post (by simp) (fun x hx => ho x (by simp [hx])) (by simp)
    rw [show (str! ", " ++ opsText (o' :: os) ++ post).drop 1 = [' '] ++ opsText (o' :: os) ++ post from rfl, ih] at this
    rw [show (o :: o' :: os).map AsmOp.expr = o.expr :: (o' :: os).map AsmOp.expr from rfl, List.cons_append, ← this]
    congr 1
    simp [opsText, AsmOp.text]

/-- The text of operands after the template. -/
private abbrev opsPart (outs ins : List AsmOp) : Str := str! ": " ++ opsText outs ++ str! " : " ++ opsText ins

private theorem ops_length : ∀ (ops : List AsmOp), ops.length ≤ (opsText ops).length
  | [] => Nat.zero_le _
  | [o] => by simp [opsText, AsmOp.text]
  | o :: o' :: os => by
    have := ops_length (o' :: os)
    simp only [opsText, List.length_append, List.length_cons, AsmOp.text] at this ⊢
    omega

private theorem parse_part (outs ins : List AsmOp) (ho : PlainOps outs) (hi : PlainOps ins) :
    parseAsmArgs ((opsPart outs ins).length + 1) (opsPart outs ins) = (outs ++ ins).map AsmOp.expr := by
  have step : ∀ (k : Nat) (pre : Str), '(' ∉ pre → ins.length ≤ k →
      parseAsmArgs k (pre ++ opsText ins) = ins.map AsmOp.expr := by
    intro k pre hp hk
    by_cases e : ins = []
    · subst e
      rw [parse_none]
      · rfl
      · simpa [opsText] using hp
    · obtain ⟨j, rfl⟩ := Nat.exists_eq_add_of_le' hk
      have := parse_ops ins j pre [] hp hi e
      rw [List.append_nil] at this
      rw [this, parse_none _ _ (by simp), List.append_nil]
  have l1 := ops_length outs
  have l2 := ops_length ins
  have hl : (opsPart outs ins).length = (opsText outs).length + (opsText ins).length + 5 := by
    simp [opsPart]
    omega
  by_cases e : outs = []
  · subst e
    have := step ((opsPart [] ins).length + 1) (str! ":  : ") (by decide) (by omega)
    simpa [opsPart, opsText] using this
  · obtain ⟨k, hk⟩ : ∃ k, (opsPart outs ins).length + 1 = k + outs.length := ⟨(opsPart outs ins).length + 1 - outs.length, by omega⟩
    have := parse_ops outs k (str! ": ") (str! " : " ++ opsText ins) (by decide) ho e
    rw [hk, show opsPart outs ins = str! ": " ++ opsText outs ++ (str! " : " ++ opsText ins) by simp [opsPart], this]
    rw [show (str! " : " ++ opsText ins).drop 1 = str! ": " ++ opsText ins from rfl, step k _ (by decide) (by omega)]
    simp

/-! ### Conversion of the statement -/

private theorem findSub_first (c : Char) (p : Str) : ∀ (s : Str), c ∉ s → findSub (c :: p) s = none
  | [], _ => by simp [findSub]
  | x :: xs, h => by
    rw [findSub, findSub_first c p xs (fun hc => h (by simp [hc]))]
    have : startsWith (x :: xs) (c :: p) = false := by
      unfold startsWith
      rw [List.isPrefixOf]
      have : (c == x) = false := by
        rw [beq_eq_false_iff_ne]
        rintro rfl
        exact h (by simp)
      rw [this, Bool.false_and]
    rw [this]
    rfl

private theorem replace_none (c : Char) (p q s : Str) (h : c ∉ s) : (findAndReplace (c :: p) q s).getD s = s := by
  rw [findAndReplace, if_neg (by simp), replaceLoop, findSub_first c p s h]
  rfl

private theorem convert_ops (s : Str) (h : '%' ∉ s) : ∀ (k i : Nat), convertOperands k i s = s
  | 0, _ => rfl
  | k + 1, i => by
    rw [convertOperands]
    rw [show str! "%c" ++ (toString i).toList = '%' :: ('c' :: (toString i).toList) from rfl, replace_none _ _ _ _ h]
    exact convert_ops s h k (i + 1)

private theorem convert_plain {s : Str} (h : PlainTemplate s) : convertTemplate s = s := by
  unfold convertTemplate
  rw [convert_ops s (fun hc => (h.2 _ hc).2.1 rfl)]
  dsimp only
  have hb : '\\' ∉ s := fun hc => (h.2 _ hc).2.2.1 rfl
  rw [show str! "\\t" = '\\' :: ['t'] from rfl, replace_none _ _ _ _ hb]
  rw [show str! "\\n" = '\\' :: ['n'] from rfl, replace_none _ _ _ _ hb]

private theorem ops_balanced : ∀ (ops : List AsmOp), PlainOps ops → Balanced (opsText ops)
  | [], _ => .nil
  | o :: os, h => by
    obtain ⟨h1, h2⟩ := h o (by simp)
    have ht : Balanced o.text := by
      have : o.text = ('"' :: (o.constr ++ ['"'])) ++ ('(' :: (o.expr ++ ')' :: [])) := by simp [AsmOp.text]
      rw [this]
      refine balanced_app (balanced_plain fun c hc => ?_) (.paren _ _ h2.1 .nil)
      rcases List.mem_cons.1 hc with rfl | hc
      · decide
      · rcases List.mem_append.1 hc with hc | hc
        · exact (h1 c hc).2
        · rw [List.mem_singleton] at hc
          subst hc
          decide
    cases os with
    | nil => exact ht
    | cons o' os =>
      exact balanced_app (balanced_app ht (balanced_plain (by decide))) (ops_balanced (o' :: os) fun x hx => h x (by simp [hx]))

private theorem ops_quotes : ∀ (ops : List AsmOp), PlainOps ops → (opsText ops).count '"' % 2 = 0
  | [], _ => rfl
  | o :: os, h => by
    obtain ⟨h1, h2⟩ := h o (by simp)
    have ht : o.text.count '"' = 2 := by
      have c1 : o.constr.count '"' = 0 := List.count_eq_zero.2 fun hc => (h1 _ hc).1 rfl
      have c2 : o.expr.count '"' = 0 := List.count_eq_zero.2 h2.2
      simp [AsmOp.text, List.count_append, List.count_cons, c1, c2]
    cases os with
    | nil => rw [opsText, ht]
    | cons o' os =>
      have ih := ops_quotes (o' :: os) fun x hx => h x (by simp [hx])
      have : (str! ", ").count '"' = 0 := by decide
      rw [opsText, List.count_append, List.count_append, ht, this]
      omega
      intro e
      cases e

private theorem lits_balanced : ∀ (L : List Str), (∀ l ∈ L, ∀ c ∈ l, c ≠ '(' ∧ c ≠ ')') → Balanced (litsText L)
  | [], _ => .nil
  | l :: L, h =>
    balanced_app (balanced_app (balanced_app (balanced_plain (by decide)) (balanced_plain (h l (by simp))))
      (balanced_plain (by decide))) (lits_balanced L fun x hx => h x (by simp [hx]))

private theorem lits_quotes : ∀ (L : List Str), (∀ l ∈ L, '"' ∉ l) → (litsText L).count '"' % 2 = 0
  | [], _ => rfl
  | l :: L, h => by
    have ih := lits_quotes L fun x hx => h x (by simp [hx])
    have c : l.count '"' = 0 := List.count_eq_zero.2 (h l (by simp))
    have d : (str! "\"").count '"' = 1 := by decide
    have d' : (str! "\" ").count '"' = 1 := by decide
    rw [litsText, List.count_append, List.count_append, List.count_append, c, d, d']
    omega

private theorem lits_length : ∀ (L : List Str), L.length ≤ (litsText L).length
  | [] => Nat.le_refl _
  | l :: L => by
    have := lits_length L
    simp only [litsText, List.length_append, List.length_cons]
    omega

private theorem join_lits (R : Str) : ∀ (L : List Str) (k : Nat), L.length ≤ k → (∀ l ∈ L, '"' ∉ l) →
    joinStrings k (' ' :: (litsText L ++ ':' :: R)) = (L.flatten, ' ' :: ':' :: R)
  | [], k, _, _ => by cases k <;> rfl
  | l :: L, k + 1, hk, h => by
    have e : ' ' :: (litsText (l :: L) ++ ':' :: R) = ' ' :: '"' :: (l ++ '"' :: ' ' :: (litsText L ++ ':' :: R)) := by
      simp [litsText]
    rw [e, joinStrings, show stringFirst (' ' :: '"' :: (l ++ '"' :: ' ' :: (litsText L ++ ':' :: R))) = true from rfl, if_pos rfl]
    rw [show splitAtChar '"' (' ' :: '"' :: (l ++ '"' :: ' ' :: (litsText L ++ ':' :: R)))
      = some ([' '], l ++ '"' :: ' ' :: (litsText L ++ ':' :: R)) from rfl]
    dsimp only
    rw [split_here '"' l _ (h l (by simp))]
    dsimp only
    rw [join_lits R L k (by simpa using hk) fun x hx => h x (by simp [hx])]
    simp

private theorem parts_eq (L : List Str) (outs ins : List AsmOp) (hT : PlainTemplate L.flatten) (ho : PlainOps outs) (hi : PlainOps ins) :
    asmParts (asmStmt L outs ins) = (L.flatten, opsPart outs ins) := by
  have hc : ∀ l ∈ L, ∀ c ∈ l, c ∈ L.flatten := fun l hl c hc => List.mem_flatten.2 ⟨l, hl, hc⟩
  have hq : ∀ l ∈ L, '"' ∉ l := fun l hl h => (hT.2 _ (hc l hl _ h)).1 rfl
  have e : asmStmt L outs ins
      = str! "asm" ++ '(' :: ((litsText L ++ opsPart outs ins) ++ ')' :: str! ";") := by
    simp [asmStmt, opsPart]
  have hb : Balanced (litsText L ++ opsPart outs ins) :=
    balanced_app (lits_balanced L fun l hl c h => (hT.2 c (hc l hl c h)).2.2.2)
      (balanced_app (balanced_app (balanced_app (balanced_plain (by decide)) (ops_balanced outs ho)) (balanced_plain (by decide)))
        (ops_balanced ins hi))
  have hm := toMatchingBracket_balanced (str! "asm") (litsText L ++ opsPart outs ins) (str! ";") hb
  rw [e]
  generalize hw : litsText L ++ opsPart outs ins = w at hm
  have f1 : findSub (str! "asm") (str! "asm" ++ '(' :: (w ++ ')' :: str! ";")) = some 0 := rfl
  have f2 : findSub (str! "(") ((str! "asm" ++ '(' :: (w ++ ')' :: str! ";")).drop 0) = some 3 := rfl
  rw [asmParts, f1]
  dsimp only
  rw [f2]
  dsimp only
  rw [show 0 + 3 = (str! "asm").length from rfl, hm, if_neg (by simp)]
  rw [List.drop_one, List.tail_cons, List.dropLast_concat, asmBody]
  have cnt : w.count '"' % 2 = 0 := by
    have a := ops_quotes outs ho
    have b := ops_quotes ins hi
    have c := lits_quotes L hq
    have d : (str! ": ").count '"' = 0 := by decide
    have d' : (str! " : ").count '"' = 0 := by decide
    rw [← hw, List.count_append]
    simp only [opsPart, List.count_append, d, d']
    omega
  rw [if_neg (by omega)]
  have j : joinStrings w.length w = (L.flatten, ' ' :: opsPart outs ins) := by
    subst hw
    cases L with
    | nil => exact absurd rfl hT.1
    | cons l L =>
      have ll := lits_length L
      obtain ⟨k, hk, hl⟩ : ∃ k, (litsText (l :: L) ++ opsPart outs ins).length = k + 1 ∧ L.length ≤ k := by
        refine ⟨(litsText (l :: L) ++ opsPart outs ins).length - 1, ?_, ?_⟩ <;>
        · simp only [litsText, List.length_append, List.length_cons]
          omega
      have e : litsText (l :: L) ++ opsPart outs ins = '"' :: (l ++ '"' :: ' ' :: (litsText L ++ opsPart outs ins)) := by
        simp [litsText]
      rw [hk, e, joinStrings,
        show stringFirst ('"' :: (l ++ '"' :: ' ' :: (litsText L ++ opsPart outs ins))) = true from rfl, if_pos rfl]
      rw [show splitAtChar '"' ('"' :: (l ++ '"' :: ' ' :: (litsText L ++ opsPart outs ins)))
        = some ([], l ++ '"' :: ' ' :: (litsText L ++ opsPart outs ins)) from rfl]
      dsimp only
      rw [split_here '"' l _ (hq l (by simp))]
      dsimp only
      have hj := join_lits (' ' :: (opsText outs ++ str! " : " ++ opsText ins)) L k hl fun x hx => hq x (by simp [hx])
      rw [show opsPart outs ins = ':' :: ' ' :: (opsText outs ++ str! " : " ++ opsText ins) by simp [opsPart], hj]
      simp
  rw [j]
  dsimp only
  rw [convert_plain hT]
  rfl

/-! ### Choice of a statement -/

private abbrev candsOf (S : List AsmSrc) : List (Str × Str) := S.map fun a => (a.template, opsPart a.outs a.ins)

private theorem cands_eq (S : List AsmSrc) (h : ∀ a ∈ S, PlainAsm a) :
    ((S.map AsmSrc.text).map asmParts).filter (fun c => decide (c ≠ ([], []))) = candsOf S := by
  rw [List.map_map]
  have : S.map (asmParts ∘ AsmSrc.text) = candsOf S :=
    List.map_congr_left fun a ha => parts_eq _ _ _ (h a ha).1 (h a ha).2.1 (h a ha).2.2
  rw [this]
  refine List.filter_eq_self.2 fun c hc => ?_
  obtain ⟨a, ha, rfl⟩ := List.mem_map.1 hc
  have := (h a ha).1.1
  simp [this]

private theorem keep_true {pos : Nat} {asm : Str} {c : Str × Str} (h1 : pos ≤ c.1.length) (h2 : pos ≤ asm.length) :
    keepCand pos asm c = some (decide (c.1[pos]? = asm[pos]?) && decide (c.1 ≠ [])) := by
  unfold keepCand
  rw [if_neg (by simp; omega)]

private theorem filter_eq (pos : Nat) (asm : Str) : ∀ (cs : List (Str × Str)),
    (∀ c ∈ cs, pos ≤ c.1.length ∧ pos ≤ asm.length) →
    filterCands pos asm cs = some (cs.filter fun c => decide (c.1[pos]? = asm[pos]?) && decide (c.1 ≠ []))
  | [], _ => rfl
  | c :: cs, h => by
    obtain ⟨h1, h2⟩ := h c (by simp)
    rw [filterCands, keep_true h1 h2, filter_eq pos asm cs fun d hd => h d (by simp [hd]), List.filter_cons]
    rfl

private theorem filter_some {pos : Nat} {asm : Str} : ∀ {cs r : List (Str × Str)}, filterCands pos asm cs = some r →
    (∀ c ∈ r, c ∈ cs) ∧ ∀ c ∈ cs, c.1 = asm → c.1 ≠ [] → c ∈ r
  | [], r, h => by
    cases h
    exact ⟨fun _ h => h, fun _ h => nomatch h⟩
  | c :: cs, r, h => by
    rw [filterCands] at h
    cases hk : keepCand pos asm c with
    | none => rw [hk] at h; cases h
    | some b =>
      rw [hk] at h
      cases hf : filterCands pos asm cs with
      | none => rw [hf] at h; cases h
      | some r' =>
        rw [hf] at h
        cases h
        obtain ⟨i1, i2⟩ := filter_some hf
        constructor
        · intro d hd
          dsimp only [Option.bind, Option.map] at hd
          split at hd
          · rcases List.mem_cons.1 hd with rfl | hd
            · simp
            · simp [i1 d hd]
          · simp [i1 d hd]
        · intro d hd e ne
          dsimp only [Option.bind, Option.map]
          rcases List.mem_cons.1 hd with rfl | hd
          · have : b = true := by
              unfold keepCand at hk
              split at hk
              · cases hk
              · cases hk
                simp [e]
                rw [← e]
                exact ne
            rw [this]
            simp
          · have := i2 d hd e ne
            split
            · simp [this]
            · exact this

private theorem choose_some {asm : Str} : ∀ {k pos : Nat} {cs r : List (Str × Str)}, chooseCands asm k pos cs = some r →
    r.length ≤ 1 ∧ (∀ c ∈ r, c ∈ cs) ∧ ∀ c ∈ cs, c.1 = asm → c.1 ≠ [] → c ∈ r
  | 0, _, _, _, h => by cases h
  | k + 1, pos, cs, r, h => by
    rw [chooseCands] at h
    split at h
    · rename_i le
      cases h
      exact ⟨le, fun _ h => h, fun _ h _ _ => h⟩
    · cases hf : filterCands pos asm cs with
      | none => rw [hf] at h; cases h
      | some r' =>
        rw [hf] at h
        obtain ⟨a, b, c⟩ := choose_some h
        obtain ⟨i1, i2⟩ := filter_some hf
        exact ⟨a, fun d hd => i1 d (b d hd), fun d hd e ne => c d (i2 d hd e ne) e ne⟩

/-- Agreement at all earlier positions. -/
private theorem agree_same {c asm : Str} {pos : Nat} (h : ∀ j, j < pos → c[j]? = asm[j]?) (lt : asm.length < pos ∨ c.length < pos) :
    c = asm := by
  have le : asm.length < pos ∧ c.length = asm.length := by
    rcases lt with lt | lt
    · have h1 := h _ lt
      rw [List.getElem?_eq_none (Nat.le_refl _)] at h1
      have h1 := List.getElem?_eq_none_iff.1 h1
      refine ⟨lt, ?_⟩
      have h2 := h c.length (by omega)
      rw [List.getElem?_eq_none (Nat.le_refl _)] at h2
      have h2 := List.getElem?_eq_none_iff.1 h2.symm
      omega
    · have h1 := h _ lt
      rw [List.getElem?_eq_none (Nat.le_refl _)] at h1
      have h1 := List.getElem?_eq_none_iff.1 h1.symm
      have h2 := h asm.length (by omega)
      rw [List.getElem?_eq_none (l := asm) (Nat.le_refl _)] at h2
      have h2 := List.getElem?_eq_none_iff.1 h2
      exact ⟨by omega, by omega⟩
  refine List.ext_getElem? fun j => ?_
  by_cases hj : j < pos
  · exact h j hj
  · rw [List.getElem?_eq_none (by omega), List.getElem?_eq_none (by omega)]

private theorem choose_total {asm : Str} : ∀ (k pos : Nat) (cs : List (Str × Str)), (cs.map Prod.fst).Nodup →
    (∀ c ∈ cs, ∀ j, j < pos → c.1[j]? = asm[j]?) → k + pos = asm.length + 2 → 1 ≤ k → chooseCands asm k pos cs ≠ none
  | 0, _, _, _, _, _, h => by omega
  | k + 1, pos, cs, nd, ag, hk, _ => by
    rw [chooseCands]
    split
    · exact fun h => nomatch h
    · rename_i gt
      have in_range : ∀ c ∈ cs, pos ≤ c.1.length ∧ pos ≤ asm.length := by
        by_contra hc
        push Not at hc
        obtain ⟨c, hc, h⟩ := hc
        have all : ∀ d ∈ cs, d.1 = asm := by
          have la : asm.length < pos := by
            by_cases hl : pos ≤ c.1.length
            · exact h hl
            · have := agree_same (ag c hc) (.inr (by omega))
              rw [← this]
              omega
          exact fun d hd => agree_same (ag d hd) (.inl la)
        match cs, gt, nd, all with
        | [], gt, _, _ => simp at gt
        | [_], gt, _, _ => simp at gt
        | a :: b :: _, _, nd, all =>
          have e1 := all a (by simp)
          have e2 := all b (by simp)
          simp only [List.map_cons, List.nodup_cons, List.mem_cons, not_or] at nd
          exact nd.1.1 (e1.trans e2.symm)
      rw [filter_eq pos asm cs in_range]
      have kp : 1 ≤ k := by
        cases cs with
        | nil => simp at gt
        | cons c cs =>
          have := (in_range c (by simp)).2
          omega
      refine choose_total k (pos + 1) _ (nd.sublist (List.filter_sublist.map _)) ?_ (by omega) kp
      intro c hc j hj
      obtain ⟨hc, e⟩ := List.mem_filter.1 hc
      by_cases h : j < pos
      · exact ag c hc j h
      · have : j = pos := by omega
        subst this
        rw [Bool.and_eq_true] at e
        exact of_decide_eq_true e.1

private theorem source_args (S : List AsmSrc) (h : ∀ a ∈ S, PlainAsm a) (asm : Str) (hne : S ≠ []) (ha : asm ≠ []) :
    asmSourceArgs (S.map AsmSrc.text) asm =
      (chooseCands asm (asm.length + 2) 0 (candsOf S)).map candArgs := by
  rw [← cands_eq S h]
  cases S with
  | nil => exact absurd rfl hne
  | cons a S =>
    rw [List.map_cons, asmSourceArgs, if_neg]
    intro h
    rcases Bool.or_eq_true_iff.1 h with h | h
    · exact ha (of_decide_eq_true h)
    · exact absurd (of_decide_eq_true h) (by simp [AsmSrc.text, asmStmt])

/-! ### C174 -/

/-- C174: operands that are found for inline assembly are those of a statement with this assembly. -/
def C174_statement : Prop :=
  ∀ (S : List AsmSrc) (asm : Str) (args : List Str), (∀ a ∈ S, PlainAsm a) → asm ≠ [] →
    asmSourceArgs (S.map AsmSrc.text) asm = some args → args ≠ [] →
    ∃ a ∈ S, a.template = asm ∧ args = (a.outs ++ a.ins).map AsmOp.expr

/-- `asm("nop" : : "i"(__LINE__));` -/
def nopLine : AsmSrc := ⟨[str! "nop"], [], [⟨str! "i", str! "__LINE__"⟩]⟩

theorem nopLine_plain : PlainAsm nopLine := by
  refine ⟨⟨by decide, by decide⟩, by simp [PlainOps, nopLine], fun o ho => ?_⟩
  simp only [nopLine, List.mem_singleton] at ho
  subst ho
  exact ⟨by unfold PlainConstr; decide, balanced_plain (by decide), by decide⟩

/-- C174 is false: if there is one statement, its assembly is not compared. -/
theorem C174_fails : ¬ C174_statement := by
  intro h
  obtain ⟨a, ha, e, _⟩ := h [nopLine] (str! "int3") [str! "__LINE__"] (by simpa using nopLine_plain) (by decide)
    (by decide +kernel) (by simp)
  rw [List.mem_singleton] at ha
  subst ha
  revert e
  decide

/-- C174 if there is a statement with the assembly; what is missing: other statements. -/
theorem C174_present_partial (S : List AsmSrc) (asm : Str) (args : List Str) (h : ∀ a ∈ S, PlainAsm a)
    (p : ∃ a ∈ S, a.template = asm) (e : asmSourceArgs (S.map AsmSrc.text) asm = some args) :
    ∃ a ∈ S, a.template = asm ∧ args = (a.outs ++ a.ins).map AsmOp.expr := by
  obtain ⟨a, ha, ta⟩ := p
  have hne : asm ≠ [] := ta ▸ (h a ha).1.1
  rw [source_args S h asm (List.ne_nil_of_mem ha) hne] at e
  cases hc : chooseCands asm (asm.length + 2) 0 (candsOf S) with
  | none => rw [hc] at e; cases e
  | some r =>
    rw [hc] at e
    obtain ⟨h1, h2, h3⟩ := choose_some hc
    have hr := h3 _ (List.mem_map.2 ⟨a, ha, rfl⟩) ta (h a ha).1.1
    match r, h1, hr, e with
    | [], _, hr, _ => cases hr
    | [c], _, hr, e =>
      rw [List.mem_singleton] at hr
      subst hr
      cases e
      exact ⟨a, ha, ta, parse_part a.outs a.ins (h a ha).2.1 (h a ha).2.2⟩
    | _ :: _ :: _, h1, _, _ => simp at h1

/-- `asm("ud" "2" : "=r"(x) : "i"(f(y, 2)), "r"(z));` -/
def ud2Line : AsmSrc := ⟨[str! "ud", str! "2"], [⟨str! "=r", str! "x"⟩], [⟨str! "i", str! "f(y, 2)"⟩, ⟨str! "r", str! "z"⟩]⟩

theorem ud2Line_plain : PlainAsm ud2Line := by
  refine ⟨⟨by decide, by decide⟩, fun o ho => ?_, fun o ho => ?_⟩
  · simp only [ud2Line, List.mem_singleton] at ho
    subst ho
    exact ⟨by unfold PlainConstr; decide, balanced_plain (by decide), by decide⟩
  · simp only [ud2Line, List.mem_cons, List.not_mem_nil, or_false] at ho
    rcases ho with rfl | rfl
    · refine ⟨by unfold PlainConstr; decide, ?_, by decide⟩
      exact .char _ _ (by decide) (by decide) (.paren (str! "y, 2") [] (balanced_plain (by decide)) .nil)
    · exact ⟨by unfold PlainConstr; decide, balanced_plain (by decide), by decide⟩

example : (∀ a ∈ [nopLine, ud2Line], PlainAsm a) ∧ ∃ a ∈ [nopLine, ud2Line], a.template = str! "ud2" := by
  refine ⟨fun a ha => ?_, ud2Line, by simp, rfl⟩
  simp only [List.mem_cons, List.not_mem_nil, or_false] at ha
  rcases ha with rfl | rfl
  · exact nopLine_plain
  · exact ud2Line_plain

example : asmSourceArgs [nopLine.text, ud2Line.text] (str! "ud2") = some [str! "x", str! "f(y, 2)", str! "z"] := by decide +kernel

/-! ### C175 -/

/-- C175: the expression found for an operand of the assembly is the one it is written as: operands of the
assembly are its inputs, in their order; outputs are results. -/
def C175_statement : Prop :=
  ∀ (a : AsmSrc), PlainAsm a → asmSourceArgs [a.text] a.template = some (a.ins.map AsmOp.expr)

/-- C175 is false: outputs are counted. -/
theorem C175_fails : ¬ C175_statement := by
  intro h
  have := h ud2Line ud2Line_plain
  have e : asmSourceArgs [ud2Line.text] ud2Line.template = some [str! "x", str! "f(y, 2)", str! "z"] := by decide +kernel
  rw [e] at this
  revert this
  decide

/-- The call of inline assembly that is written as `a`. -/
def asmCall (a : AsmSrc) (args : List COp) : CCall :=
  { plainCall (asmPrefix ++ str! "1") [] args (fun _ => none) with asmArgs := (asmSourceArgs [a.text] a.template).getD [] }

/-- `asm("ud2" : "=r"(x) : "i"(__LINE__), "i"(n));` -/
def ud2With (n : Str) : AsmSrc := ⟨[str! "ud2"], [⟨str! "=r", str! "x"⟩], [⟨str! "i", str! "__LINE__"⟩, ⟨str! "i", n⟩]⟩

/-- Therefore assembly with different operands is found equal: the second operand is taken for the macro. -/
theorem C175_fails_equal :
    cmpCall plainEnv (asmCall (ud2With (str! "5")) [.const 32 10, .const 32 5])
      (asmCall (ud2With (str! "6")) [.const 32 10, .const 32 6]) = true ∧
    cmpCall plainEnv (asmCall { ud2With (str! "5") with outs := [] } [.const 32 10, .const 32 5])
      (asmCall { ud2With (str! "6") with outs := [] } [.const 32 10, .const 32 6]) = false := by
  decide +kernel

/-- C175 without outputs; what is missing: outputs. -/
theorem C175_no_outputs_partial (a : AsmSrc) (h : PlainAsm a) (ho : a.outs = []) :
    asmSourceArgs [a.text] a.template = some (a.ins.map AsmOp.expr) := by
  have h' : ∀ b ∈ [a], PlainAsm b := by simpa using h
  have := source_args [a] h' a.template (by simp) h.1.1
  rw [List.map_singleton] at this
  rw [this, chooseCands, if_pos (by simp)]
  refine congrArg some ((parse_part a.outs a.ins h.2.1 h.2.2).trans ?_)
  rw [ho]
  rfl

example : PlainAsm nopLine ∧ nopLine.outs = [] := ⟨nopLine_plain, rfl⟩

/-! ### C176 -/

/-- C176: the search does not read behind the ends of strings. -/
def C176_statement : Prop := ∀ (inputs : List Str) (asm : Str), asmSourceArgs inputs asm ≠ none

/-- C176 is false if the same assembly is found twice, in the line or its macros. -/
theorem C176_fails : ¬ C176_statement := fun h =>
  h [nopLine.text ++ nopLine.text, nopLine.text] (str! "nop") (by decide +kernel)

/-- C176 for different templates; what is missing: the same template in several texts. -/
theorem C176_different_partial (inputs : List Str) (asm : Str)
    (nd : (((inputs.map asmParts).filter fun c => decide (c ≠ ([], []))).map Prod.fst).Nodup) :
    asmSourceArgs inputs asm ≠ none := by
  cases inputs with
  | nil => exact fun h => nomatch h
  | cons line ls =>
    rw [asmSourceArgs]
    split
    · exact fun h => nomatch h
    · intro h
      rw [Option.map_eq_none_iff] at h
      exact choose_total _ 0 _ nd (fun _ _ j hj => absurd hj (by omega)) (by omega) (by omega) h

/-- For statements: no two of them have the same assembly. -/
theorem C176_statements_partial (S : List AsmSrc) (asm : Str) (h : ∀ a ∈ S, PlainAsm a) (nd : (S.map AsmSrc.template).Nodup) :
    asmSourceArgs (S.map AsmSrc.text) asm ≠ none := by
  refine C176_different_partial _ _ ?_
  rw [cands_eq S h, List.map_map]
  exact nd

example : ([nopLine, ud2Line].map AsmSrc.template).Nodup := by decide

/-! ### C177 -/

/-- C177: operands in templates are converted from the source's notation to LLVM's. -/
def C177_statement : Prop :=
  ∀ (ps : List AsmPiece), (∀ s, .text s ∈ ps → '%' ∉ s ∧ '\\' ∉ s) → (∀ i, .operand i ∈ ps → i < 20) →
    convertTemplate (ps.map AsmPiece.source).flatten = (ps.map AsmPiece.llvm).flatten

/-- C177 is false: operand 10 is taken for operand 1. -/
theorem C177_fails : ¬ C177_statement := by
  intro h
  have := h [.operand 10] (by simp) (by simp)
  revert this
  decide +kernel

private theorem replaced_cons {p q s t : Str} {c : Char} (hp : p ≠ []) (hc : ¬ p <+: c :: s) (h : Replaced p q s t) :
    Replaced p q (c :: s) (c :: t) := by
  have key : ∀ r : Str, r <+: s → ¬ Occurs p r → ¬ Occurs p (c :: r) := by
    rintro r hr hn ⟨a, b, e⟩
    cases a with
    | nil =>
      refine hc ?_
      have : p <+: c :: r := ⟨b, by rw [e]; rfl⟩
      exact this.trans (List.cons_prefix_cons.2 ⟨rfl, hr⟩)
    | cons x a =>
      refine hn ⟨a, b, ?_⟩
      have := congrArg List.tail e
      simpa using this
  cases h with
  | stop _ h => exact .stop _ (key s (List.prefix_refl _) h)
  | step x s' t' h1 h2 =>
    refine .step (c :: x) s' t' (key _ ?_ h1) h2
    obtain ⟨z, hz⟩ := List.dropLast_prefix p
    exact ⟨z ++ s', by
      rw [← List.append_assoc, show List.append x p.dropLast ++ z = x ++ (p.dropLast ++ z) from List.append_assoc _ _ _, hz]⟩

private theorem replaced_text {p q s t : Str} (u : Str) (hu : '%' ∉ u) (h : Replaced ('%' :: p) q s t) :
    Replaced ('%' :: p) q (u ++ s) (u ++ t) := by
  induction u with
  | nil => exact h
  | cons c u ih =>
    refine replaced_cons (by simp) ?_ (ih fun hc => hu (by simp [hc]))
    intro hp
    have := (List.cons_prefix_cons.1 hp).1
    exact hu (by simp [← this])

/-- Operands below `i` are converted. -/
private def mixPiece (i : Nat) : AsmPiece → Str
  | .text s => s
  | .operand j => if j < i then (AsmPiece.operand j).llvm else (AsmPiece.operand j).source

private theorem digit_one {i : Nat} (h : i < 10) : ∃ d, (toString i).toList = [d] ∧ d ≠ '%' ∧ d ≠ '\\' := by
  match i, h with
  | 0, _ => exact ⟨'0', by decide +kernel⟩
  | 1, _ => exact ⟨'1', by decide +kernel⟩
  | 2, _ => exact ⟨'2', by decide +kernel⟩
  | 3, _ => exact ⟨'3', by decide +kernel⟩
  | 4, _ => exact ⟨'4', by decide +kernel⟩
  | 5, _ => exact ⟨'5', by decide +kernel⟩
  | 6, _ => exact ⟨'6', by decide +kernel⟩
  | 7, _ => exact ⟨'7', by decide +kernel⟩
  | 8, _ => exact ⟨'8', by decide +kernel⟩
  | 9, _ => exact ⟨'9', by decide +kernel⟩
  | n + 10, h => omega

private theorem digit_inj {i j : Nat} (hi : i < 10) (hj : j < 10) (h : (toString i).toList = (toString j).toList) : i = j := by
  have : ∀ i ∈ List.range 10, ∀ j ∈ List.range 10, (toString i).toList = (toString j).toList → i = j := by decide +kernel
  exact this i (List.mem_range.2 hi) j (List.mem_range.2 hj) h

private theorem llvm_no_percent {j : Nat} (hj : j < 10) : '%' ∉ (AsmPiece.operand j).llvm ∧ '\\' ∉ (AsmPiece.operand j).llvm := by
  obtain ⟨d, e, h1, h2⟩ := digit_one hj
  simp only [AsmPiece.llvm, e]
  simp [h1.symm, h2.symm]

private theorem mix_step (i : Nat) (hi : i < 10) : ∀ (ps : List AsmPiece), (∀ s, .text s ∈ ps → '%' ∉ s) →
    (∀ j, .operand j ∈ ps → j < 10) →
    Replaced (str! "%c" ++ (toString i).toList) (AsmPiece.operand i).llvm
      (ps.map (mixPiece i)).flatten (ps.map (mixPiece (i + 1))).flatten
  | [], _, _ => by
    refine .stop _ ?_
    rintro ⟨a, b, e⟩
    simp at e
  | .text s :: ps, h1, h2 => by
    have ih := mix_step i hi ps (fun s hs => h1 s (by simp [hs])) fun j hj => h2 j (by simp [hj])
    exact replaced_text s (h1 s (by simp)) ih
  | .operand j :: ps, h1, h2 => by
    have ih := mix_step i hi ps (fun s hs => h1 s (by simp [hs])) fun j hj => h2 j (by simp [hj])
    have hj := h2 j (by simp)
    rw [List.map_cons, List.map_cons, List.flatten_cons, List.flatten_cons]
    by_cases lt : j < i
    · rw [mixPiece, if_pos lt, mixPiece, if_pos (by omega)]
      exact replaced_text _ (llvm_no_percent hj).1 ih
    · by_cases eq : j = i
      · subst eq
        rw [mixPiece, if_neg lt, mixPiece, if_pos (by omega)]
        refine .step [] _ _ ?_ ih
        rintro ⟨a, b, e⟩
        have := congrArg List.length e
        simp at this
        omega
      · rw [mixPiece, if_neg lt, mixPiece, if_neg (by omega)]
        obtain ⟨d, e, nd, _⟩ := digit_one hj
        obtain ⟨d', e', _, _⟩ := digit_one hi
        have ne : d' ≠ d := by
          rintro rfl
          exact eq (digit_inj hj hi (e.trans e'.symm))
        rw [AsmPiece.source, e]
        rw [e'] at ih ⊢
        have a := replaced_text (p := ['c', d']) [('c' : Char), d] (by simp [nd.symm]) ih
        refine replaced_cons (by simp) ?_ a
        intro hp
        have := (List.cons_prefix_cons.1 (List.cons_prefix_cons.1 (List.cons_prefix_cons.1 hp).2).2).1
        exact ne this

private theorem mix_all (k i : Nat) (ps : List AsmPiece) (h1 : ∀ s, .text s ∈ ps → '%' ∉ s)
    (h2 : ∀ j, .operand j ∈ ps → j < 10) (e : 10 ≤ k + i) :
    convertOperands k i (ps.map (mixPiece i)).flatten = (ps.map AsmPiece.llvm).flatten := by
  induction k generalizing i with
  | zero =>
    rw [convertOperands]
    congr 1
    refine List.map_congr_left fun p hp => ?_
    cases p with
    | text s => rfl
    | operand j =>
      have := h2 j hp
      rw [mixPiece, if_pos (by omega)]
  | succ k ih =>
    by_cases hi : i < 10
    · rw [convertOperands]
      have := findAndReplace_eq (by simp) (mix_step i hi ps h1 h2)
      rw [AsmPiece.llvm] at this
      rw [this, Option.getD_some]
      exact ih (i + 1) (by omega)
    · have eq : ps.map (mixPiece i) = ps.map AsmPiece.llvm := by
        refine List.map_congr_left fun p hp => ?_
        cases p with
        | text s => rfl
        | operand j =>
          have := h2 j hp
          rw [mixPiece, if_pos (by omega)]
      rw [eq]
      refine convert_ops _ ?_ _ _
      intro hc
      obtain ⟨t, ht, hc⟩ := List.mem_flatten.1 hc
      obtain ⟨p, hp, rfl⟩ := List.mem_map.1 ht
      cases p with
      | text s => exact h1 s hp hc
      | operand j => exact (llvm_no_percent (h2 j hp)).1 hc

/-- C177 for operands below 10; what is missing: others. -/
theorem C177_digits_partial (ps : List AsmPiece) (h1 : ∀ s, .text s ∈ ps → '%' ∉ s ∧ '\\' ∉ s)
    (h2 : ∀ i, .operand i ∈ ps → i < 10) : convertTemplate (ps.map AsmPiece.source).flatten = (ps.map AsmPiece.llvm).flatten := by
  have e : ps.map AsmPiece.source = ps.map (mixPiece 0) := by
    refine List.map_congr_left fun p _ => ?_
    cases p with
    | text s => rfl
    | operand j => rw [mixPiece, if_neg (by omega)]
  have m := mix_all 20 0 ps (fun s hs => (h1 s hs).1) h2 (by omega)
  rw [← e] at m
  have hb : '\\' ∉ (ps.map AsmPiece.llvm).flatten := by
    intro hc
    obtain ⟨t, ht, hc⟩ := List.mem_flatten.1 hc
    obtain ⟨p, hp, rfl⟩ := List.mem_map.1 ht
    cases p with
    | text s => exact (h1 s hp).2 hc
    | operand j => exact (llvm_no_percent (h2 j hp)).2 hc
  unfold convertTemplate
  rw [m]
  dsimp only
  rw [show str! "\\t" = '\\' :: ['t'] from rfl, replace_none _ _ _ _ hb]
  rw [show str! "\\n" = '\\' :: ['n'] from rfl, replace_none _ _ _ _ hb]

example : convertTemplate (([.text (str! "bug "), .operand 0, .text (str! ", "), .operand 3] : List AsmPiece).map AsmPiece.source).flatten
    = str! "bug ${0:c}, ${3:c}" := by decide +kernel

end DK
