import Verif.Spec.DiffView

/-! C183: every line of a displayed function can be seen. -/

set_option autoImplicit false

namespace DK
open Spec

theorem ordered_filter {p : VHunk → Bool} {hs : List VHunk} (h : OrderedHunks hs) : OrderedHunks (hs.filter p) :=
  List.Pairwise.filter _ h

theorem shown_inRange {s e l : Int} {hs : List VHunk} (hl : s ≤ l ∧ l ≤ e) : ShownLine (hunksInRange s e hs) l ↔ ShownLine hs l := by
  constructor
  · rintro ⟨h, hm, hi⟩
    exact ⟨h, (List.mem_filter.1 hm).1, hi⟩
  · rintro ⟨h, hm, hi⟩
    refine ⟨h, List.mem_filter.2 ⟨hm, ?_⟩, hi⟩
    unfold InHunk at hi
    simp only [Bool.and_eq_true, decide_eq_true_eq]
    omega

/-- A line between two displayed ones is displayed or belongs to a button. -/
theorem shown_or_button {l : Int} : ∀ (hs : List VHunk), OrderedHunks hs → (∃ h ∈ hs, h.start ≤ l) →
    (∃ h ∈ hs, l < h.start + h.lines) → ShownLine hs l ∨ ∃ r ∈ expandButtons hs, r.1 ≤ l ∧ l ≤ r.2
  | [], _, ⟨_, hm, _⟩, _ => nomatch hm
  | [a], _, ⟨h, hm, h1⟩, ⟨h', hm', h2⟩ => by
    rw [List.mem_singleton] at hm hm'
    subst hm hm'
    exact .inl ⟨h', List.mem_singleton.2 rfl, h1, h2⟩
  | a :: b :: t, ho, ⟨h, hm, h1⟩, ⟨h', hm', h2⟩ => by
    have ho' := List.pairwise_cons.1 ho
    have ha : a.start ≤ l := by
      rcases List.mem_cons.1 hm with rfl | hm
      · exact h1
      · have := ho'.1 h hm
        omega
    by_cases hla : l < a.start + a.lines
    · exact .inl ⟨a, List.mem_cons_self, ha, hla⟩
    have hm2 : h' ∈ b :: t := by
      rcases List.mem_cons.1 hm' with rfl | hm'
      · exact absurd h2 hla
      · exact hm'
    by_cases hlb : l < b.start
    · refine .inr ⟨(a.start + a.lines, b.start - 1), ?_, by dsimp only; omega⟩
      unfold expandButtons
      rw [if_pos (by omega)]
      exact List.mem_append_left _ (List.mem_singleton.2 rfl)
    · rcases shown_or_button (b :: t) ho'.2 ⟨b, List.mem_cons_self, by omega⟩ ⟨h', hm2, h2⟩ with ⟨x, hx, hi⟩ | ⟨r, hr, hi⟩
      · exact .inl ⟨x, List.mem_cons_of_mem _ hx, hi⟩
      · refine .inr ⟨r, ?_, hi⟩
        unfold expandButtons
        exact List.mem_append_right _ hr

section
variable {n : Int} {ex : ExpandFun} (hc : ExpandContract n ex)
include hc

theorem expand_ok {hs : List VHunk} (ho : OrderedHunks hs) (a b : Int) : OrderedHunks (expandHunks ex hs a b) ∧
    (∀ l, ShownLine (expandHunks ex hs a b) l ↔ ShownLine hs l ∨ (a ≤ l ∧ l ≤ b ∧ 1 ≤ l ∧ l ≤ n)) ∧
    (∀ h ∈ hs, ∃ h' ∈ expandHunks ex hs a b, InsideHunk h h') := by
  obtain ⟨h1, h2, h3⟩ := hc hs a (b + 1) ho
  refine ⟨h1, fun l => ?_, h3⟩
  unfold expandHunks
  rw [h2 l]
  constructor
  · rintro (h | h)
    · exact .inl h
    · exact .inr (by omega)
  · rintro (h | h)
    · exact .inl h
    · exact .inr (by omega)

theorem click_ok {hs : List VHunk} (ho : OrderedHunks hs) (i : Nat) : OrderedHunks (clickExpand ex hs i) ∧
    (∀ l, ShownLine hs l → ShownLine (clickExpand ex hs i) l) ∧ (∀ h ∈ hs, ∃ h' ∈ clickExpand ex hs i, InsideHunk h h') := by
  unfold clickExpand
  cases (expandButtons hs)[i]? with
  | none => exact ⟨ho, fun _ h => h, fun h hm => ⟨h, hm, Int.le_refl _, Int.le_refl _⟩⟩
  | some r =>
    obtain ⟨h1, h2, h3⟩ := expand_ok hc ho r.1 r.2
    exact ⟨h1, fun l h => (h2 l).2 (.inl h), h3⟩

theorem inside_trans {a b c : VHunk} (h : InsideHunk a b) (h' : InsideHunk b c) : InsideHunk a c := by
  unfold InsideHunk at *
  omega

theorem clicks_ok : ∀ (is : List Nat) {hs : List VHunk}, OrderedHunks hs → OrderedHunks (is.foldl (clickExpand ex) hs) ∧
    (∀ l, ShownLine hs l → ShownLine (is.foldl (clickExpand ex) hs) l) ∧
    (∀ h ∈ hs, ∃ h' ∈ is.foldl (clickExpand ex) hs, InsideHunk h h')
  | [], _, ho => ⟨ho, fun _ h => h, fun h hm => ⟨h, hm, Int.le_refl _, Int.le_refl _⟩⟩
  | i :: is, hs, ho => by
    obtain ⟨h1, h2, h3⟩ := click_ok hc ho i
    obtain ⟨h4, h5, h6⟩ := clicks_ok is h1
    refine ⟨h4, fun l h => h5 l (h2 l h), fun h hm => ?_⟩
    obtain ⟨h', hm', hi⟩ := h3 h hm
    obtain ⟨h'', hm'', hi'⟩ := h6 h' hm'
    exact ⟨h'', hm'', inside_trans hc hi hi'⟩

theorem inRange_inside {s e : Int} {h h' : VHunk} (hi : InsideHunk h h') (ht : ∃ l, InHunk h l ∧ s ≤ l ∧ l ≤ e) :
    (decide (h'.start ≤ e) && decide (h'.start + h'.lines ≥ s)) = true := by
  obtain ⟨l, hl, h1, h2⟩ := ht
  unfold InHunk at hl
  unfold InsideHunk at hi
  simp only [Bool.and_eq_true, decide_eq_true_eq]
  omega

/-- What is displayed in the beginning. -/
theorem initial_ok (corr : List VHunk → Int → Int) {file : List VHunk} (ho : OrderedHunks file) {s e : Int} (h1 : 1 ≤ s) (h2 : s ≤ e)
    (h3 : e ≤ n) (toShow : Option (Int × Int)) :
    OrderedHunks (initialHunks ex corr file s e toShow) ∧
    ShownLine (initialHunks ex corr file s e toShow) s ∧ ShownLine (initialHunks ex corr file s e toShow) e ∧
    (∀ h ∈ file, (∃ l, InHunk h l ∧ s ≤ l ∧ l ≤ e) → ∃ h' ∈ initialHunks ex corr file s e toShow, InsideHunk h h') ∧
    (∀ c, toShow = some c →
      (e - s < 25 → ∀ l, s ≤ l → l ≤ e → ShownLine (initialHunks ex corr file s e toShow) l) ∧
      (∀ l, s ≤ l → l ≤ e → c.1 - 10 ≤ l → l ≤ c.1 + 10 → ShownLine (initialHunks ex corr file s e toShow) l) ∧
      (∀ l, s ≤ l → l ≤ e → corr file c.2 - 10 ≤ l → l ≤ corr file c.2 + 10 → ShownLine (initialHunks ex corr file s e toShow) l)) := by
  obtain ⟨a1, a2, a3⟩ := expand_ok hc ho s s
  obtain ⟨b1, b2, b3⟩ := expand_ok hc a1 e e
  have c1 : OrderedHunks (hunksInRange s e (expandHunks ex (expandHunks ex file s s) e e)) := ordered_filter b1
  have c2 : ShownLine (hunksInRange s e (expandHunks ex (expandHunks ex file s s) e e)) s :=
    (shown_inRange ⟨Int.le_refl _, h2⟩).2 ((b2 s).2 (.inl ((a2 s).2 (.inr (by omega)))))
  have c3 : ShownLine (hunksInRange s e (expandHunks ex (expandHunks ex file s s) e e)) e :=
    (shown_inRange ⟨h2, Int.le_refl _⟩).2 ((b2 e).2 (.inr (by omega)))
  have c4 : ∀ h ∈ file, (∃ l, InHunk h l ∧ s ≤ l ∧ l ≤ e) →
      ∃ h' ∈ hunksInRange s e (expandHunks ex (expandHunks ex file s s) e e), InsideHunk h h' := by
    intro h hm ht
    obtain ⟨h', hm', hi⟩ := a3 h hm
    obtain ⟨h'', hm'', hi'⟩ := b3 h' hm'
    have hi2 := inside_trans hc hi hi'
    exact ⟨h'', List.mem_filter.2 ⟨hm'', inRange_inside hc hi2 ht⟩, hi2⟩
  unfold initialHunks
  generalize hunksInRange s e (expandHunks ex (expandHunks ex file s s) e e) = hs at c1 c2 c3 c4 ⊢
  cases toShow with
  | none => exact ⟨c1, c2, c3, c4, fun _ h => nomatch h⟩
  | some c =>
    obtain ⟨o, w⟩ := c
    dsimp only
    have step : ∀ (hs' : List VHunk) (a b : Int), OrderedHunks hs' → (∀ l, ShownLine hs l → ShownLine hs' l) →
        (∀ h ∈ hs, ∃ h' ∈ hs', InsideHunk h h') →
        OrderedHunks (expandHunks ex hs' a b) ∧ (∀ l, ShownLine hs l → ShownLine (expandHunks ex hs' a b) l) ∧
        (∀ h ∈ hs, ∃ h' ∈ expandHunks ex hs' a b, InsideHunk h h') := by
      intro hs' a b d1 d2 d3
      obtain ⟨e1, e2, e3⟩ := expand_ok hc d1 a b
      refine ⟨e1, fun l h => (e2 l).2 (.inl (d2 l h)), fun h hm => ?_⟩
      obtain ⟨h', hm', hi⟩ := d3 h hm
      obtain ⟨h'', hm'', hi'⟩ := e3 h' hm'
      exact ⟨h'', hm'', inside_trans hc hi hi'⟩
    have keep : ∀ hs' : List VHunk, (∀ h ∈ hs, ∃ h' ∈ hs', InsideHunk h h') → ∀ h ∈ file,
        (∃ l, InHunk h l ∧ s ≤ l ∧ l ≤ e) → ∃ h' ∈ hs', InsideHunk h h' := by
      intro hs' d h hm ht
      obtain ⟨h', hm', hi⟩ := c4 h hm ht
      obtain ⟨h'', hm'', hi'⟩ := d h' hm'
      exact ⟨h'', hm'', inside_trans hc hi hi'⟩
    have self : ∀ h ∈ hs, ∃ h' ∈ hs, InsideHunk h h' := fun h hm => ⟨h, hm, Int.le_refl _, Int.le_refl _⟩
    by_cases hlong : isFunctionLong s e = true
    · rw [if_pos hlong]
      have hlong' : ¬ (e - s < 25) := by
        unfold isFunctionLong at hlong
        simp only [decide_eq_true_eq] at hlong
        omega
      obtain ⟨d1, d2, d3⟩ := step hs (max (o - 10) s) (min (o + 10) e) c1 (fun _ h => h) self
      have d4 : ∀ l, s ≤ l → l ≤ e → o - 10 ≤ l → l ≤ o + 10 → ShownLine (addLineWithContext ex s e hs o) l :=
        fun l q1 q2 q3 q4 => ((expand_ok hc c1 _ _).2.1 l).2 (.inr (by omega))
      by_cases hcorr : corr file w ≠ o
      · rw [if_pos hcorr]
        obtain ⟨f1, f2, f3⟩ := step (addLineWithContext ex s e hs o) (max (corr file w - 10) s) (min (corr file w + 10) e) d1 d2 d3
        refine ⟨f1, f2 s c2, f2 e c3, keep _ f3, ?_⟩
        intro c hcc
        cases hcc
        refine ⟨fun h => absurd h hlong', fun l q1 q2 q3 q4 => ?_, fun l q1 q2 q3 q4 => ?_⟩
        · exact ((expand_ok hc d1 _ _).2.1 l).2 (.inl (d4 l q1 q2 q3 q4))
        · dsimp only at q3 q4
          exact ((expand_ok hc d1 _ _).2.1 l).2 (.inr (by omega))
      · rw [if_neg hcorr]
        refine ⟨d1, d2 s c2, d2 e c3, keep _ d3, ?_⟩
        intro c hcc
        cases hcc
        refine ⟨fun h => absurd h hlong', d4, fun l q1 q2 q3 q4 => d4 l q1 q2 ?_ ?_⟩
        · rw [← not_not.1 hcorr]; exact q3
        · rw [← not_not.1 hcorr]; exact q4
    · rw [if_neg hlong]
      obtain ⟨d1, d2, d3⟩ := step hs s e c1 (fun _ h => h) self
      have all : ∀ l, s ≤ l → l ≤ e → ShownLine (expandHunks ex hs s e) l :=
        fun l q1 q2 => ((expand_ok hc c1 _ _).2.1 l).2 (.inr (by omega))
      exact ⟨d1, d2 s c2, d2 e c3, keep _ d3, fun c _ => ⟨fun _ => all, fun l q1 q2 _ _ => all l q1 q2, fun l q1 q2 _ _ => all l q1 q2⟩⟩
end

theorem file_ordered {diff : Option (List VHunk)} {s : Int} (hd : ∀ hs, diff = some hs → OrderedHunks hs) :
    OrderedHunks (fileHunks diff s) := by
  cases diff with
  | none => exact List.pairwise_singleton _ _
  | some hs => exact hd hs rfl

/-- **C183** After any clicks on buttons, every line of the function is displayed or there is a button whose click displays it;
clicks hide nothing. -/
theorem C183_every_line {n : Int} {ex : ExpandFun} (hc : ExpandContract n ex) (corr : List VHunk → Int → Int) (diff : Option (List VHunk))
    (hd : ∀ hs, diff = some hs → OrderedHunks hs) (s e : Int) (h1 : 1 ≤ s) (h2 : s ≤ e) (h3 : e ≤ n) (toShow : Option (Int × Int)) (is : List Nat)
    (l : Int) (hl1 : s ≤ l) (hl2 : l ≤ e) :
    (ShownLine (is.foldl (clickExpand ex) (initialHunks ex corr (fileHunks diff s) s e toShow)) l ∨
      ∃ i, ShownLine (clickExpand ex (is.foldl (clickExpand ex) (initialHunks ex corr (fileHunks diff s) s e toShow)) i) l) ∧
    (ShownLine (initialHunks ex corr (fileHunks diff s) s e toShow) l →
      ShownLine (is.foldl (clickExpand ex) (initialHunks ex corr (fileHunks diff s) s e toShow)) l) := by
  obtain ⟨a1, ⟨x, hx, hxs⟩, ⟨y, hy, hye⟩, _⟩ := initial_ok hc corr (file_ordered hd) h1 h2 h3 toShow
  obtain ⟨b1, b2, b3⟩ := clicks_ok hc is a1
  refine ⟨?_, b2 l⟩
  obtain ⟨x', hx', hix⟩ := b3 x hx
  obtain ⟨y', hy', hiy⟩ := b3 y hy
  unfold InHunk at hxs hye
  unfold InsideHunk at hix hiy
  rcases shown_or_button _ b1 ⟨x', hx', show x'.start ≤ l by omega⟩ ⟨y', hy', show l < y'.start + y'.lines by omega⟩ with h | ⟨r, hr, hrl⟩
  · exact .inl h
  · obtain ⟨i, hi, hri⟩ := List.mem_iff_getElem.1 hr
    refine .inr ⟨i, ?_⟩
    generalize is.foldl (clickExpand ex) (initialHunks ex corr (fileHunks diff s) s e toShow) = cur at b1 hi hri ⊢
    unfold clickExpand
    rw [List.getElem?_eq_getElem hi, hri]
    exact ((expand_ok hc b1 r.1 r.2).2.1 l).2 (.inr (by omega))

/-- **C183** The first and the last line of the function, and all changes in it, are displayed from the beginning. -/
theorem C183_changes {n : Int} {ex : ExpandFun} (hc : ExpandContract n ex) (corr : List VHunk → Int → Int)
    (diff : Option (List VHunk)) (hd : ∀ hs, diff = some hs → OrderedHunks hs) (s e : Int) (h1 : 1 ≤ s) (h2 : s ≤ e) (h3 : e ≤ n) (toShow : Option (Int × Int)) :
    ShownLine (initialHunks ex corr (fileHunks diff s) s e toShow) s ∧ ShownLine (initialHunks ex corr (fileHunks diff s) s e toShow) e ∧
    ∀ h ∈ fileHunks diff s, (∃ l, InHunk h l ∧ s ≤ l ∧ l ≤ e) → ∃ h' ∈ initialHunks ex corr (fileHunks diff s) s e toShow, InsideHunk h h' := by
  obtain ⟨_, a, b, c, _⟩ := initial_ok hc corr (file_ordered hd) h1 h2 h3 toShow
  exact ⟨a, b, c⟩

/-- **C183** If the function calls another one that was selected, functions of up to 25 lines are displayed completely; of longer
ones the lines of the calls (in the old version, and those that correspond to the call in the new version) are displayed with
ten lines before and after. -/
theorem C183_calls {n : Int} {ex : ExpandFun} (hc : ExpandContract n ex) (corr : List VHunk → Int → Int)
    (diff : Option (List VHunk)) (hd : ∀ hs, diff = some hs → OrderedHunks hs) (s e : Int) (h1 : 1 ≤ s) (h2 : s ≤ e) (h3 : e ≤ n) (o w : Int) (l : Int)
    (hl1 : s ≤ l) (hl2 : l ≤ e)
    (h : e - s + 1 ≤ 25 ∨ (o - 10 ≤ l ∧ l ≤ o + 10) ∨ (corr (fileHunks diff s) w - 10 ≤ l ∧ l ≤ corr (fileHunks diff s) w + 10)) :
    ShownLine (initialHunks ex corr (fileHunks diff s) s e (some (o, w))) l := by
  obtain ⟨_, _, _, _, a⟩ := initial_ok hc corr (file_ordered hd) h1 h2 h3 (some (o, w))
  obtain ⟨x, y, z⟩ := a (o, w) rfl
  rcases h with h | h | h
  · exact x (by omega) l hl1 hl2
  · exact y l hl1 hl2 h.1 h.2
  · exact z l hl1 hl2 h.1 h.2

/-! An implementation that satisfies the contract: missing lines are inserted one by one. -/

/-- Insert a line that is not displayed. -/
def insertShown : List VHunk → Int → List VHunk
  | [], l => [⟨l, 1⟩]
  | h :: t, l => if l < h.start then ⟨l, 1⟩ :: h :: t else if l < h.start + h.lines then h :: t else h :: insertShown t l

theorem insertShown_mem : ∀ (hs : List VHunk) (l : Int), (∀ h ∈ hs, h ∈ insertShown hs l) ∧ (∀ h ∈ insertShown hs l, h ∈ hs ∨ h = ⟨l, 1⟩)
  | [], l => ⟨(fun _ h => nomatch h), fun h hm => .inr (List.mem_singleton.1 hm)⟩
  | h :: t, l => by
    obtain ⟨i1, i2⟩ := insertShown_mem t l
    unfold insertShown
    split
    · exact ⟨fun x hx => List.mem_cons_of_mem _ hx, fun x hx => (List.mem_cons.1 hx).symm⟩
    · split
      · exact ⟨fun x hx => hx, fun x hx => .inl hx⟩
      · refine ⟨fun x hx => ?_, fun x hx => ?_⟩
        · rcases List.mem_cons.1 hx with rfl | hx
          · exact List.mem_cons_self
          · exact List.mem_cons_of_mem _ (i1 x hx)
        · rcases List.mem_cons.1 hx with rfl | hx
          · exact .inl List.mem_cons_self
          · exact (i2 x hx).imp (List.mem_cons_of_mem _) id

theorem insertShown_ok : ∀ (hs : List VHunk) (l : Int), OrderedHunks hs → OrderedHunks (insertShown hs l) ∧ ShownLine (insertShown hs l) l
  | [], l, _ => ⟨List.pairwise_singleton _ _, ⟨⟨l, 1⟩, List.mem_singleton.2 rfl, by unfold InHunk; dsimp only; omega⟩⟩
  | h :: t, l, ho => by
    have ho' := List.pairwise_cons.1 ho
    obtain ⟨i1, i2⟩ := insertShown_ok t l ho'.2
    unfold insertShown
    split
    next hlt =>
      refine ⟨List.pairwise_cons.2 ⟨fun x hx => ?_, ho⟩, ⟨l, 1⟩, List.mem_cons_self, by unfold InHunk; dsimp only; omega⟩
      dsimp only
      rcases List.mem_cons.1 hx with rfl | hx
      · omega
      · have := ho'.1 x hx; omega
    next hge =>
      split
      next hlt => exact ⟨ho, h, List.mem_cons_self, by unfold InHunk; omega⟩
      next hge' =>
        refine ⟨List.pairwise_cons.2 ⟨fun x hx => ?_, i1⟩, ?_⟩
        · rcases (insertShown_mem t l).2 x hx with hx | rfl
          · exact ho'.1 x hx
          · dsimp only; omega
        · obtain ⟨x, hx, hi⟩ := i2
          exact ⟨x, List.mem_cons_of_mem _ hx, hi⟩

theorem insertShown_shown {hs : List VHunk} {l : Int} (ho : OrderedHunks hs) (x : Int) :
    ShownLine (insertShown hs l) x ↔ ShownLine hs x ∨ x = l := by
  constructor
  · rintro ⟨h, hm, hi⟩
    rcases (insertShown_mem hs l).2 h hm with hm | rfl
    · exact .inl ⟨h, hm, hi⟩
    · unfold InHunk at hi
      dsimp only at hi
      exact .inr (by omega)
  · rintro (⟨h, hm, hi⟩ | rfl)
    · exact ⟨h, (insertShown_mem hs l).1 h hm, hi⟩
    · exact (insertShown_ok hs x ho).2

theorem insertAll_ok : ∀ (ls : List Int) (hs : List VHunk), OrderedHunks hs → OrderedHunks (ls.foldl insertShown hs) ∧
    (∀ x, ShownLine (ls.foldl insertShown hs) x ↔ ShownLine hs x ∨ x ∈ ls) ∧ ∀ h ∈ hs, h ∈ ls.foldl insertShown hs
  | [], hs, ho => ⟨ho, fun x => by simp, fun _ h => h⟩
  | l :: ls, hs, ho => by
    obtain ⟨a, b, c⟩ := insertAll_ok ls (insertShown hs l) (insertShown_ok hs l ho).1
    refine ⟨a, fun x => ?_, fun h hm => c h ((insertShown_mem hs l).1 h hm)⟩
    rw [List.foldl_cons, b x, insertShown_shown ho x, List.mem_cons, or_assoc]

/-- The lines of the code in the range, one by one. -/
def simpleExpand (n : Nat) : ExpandFun := fun hs a b =>
  (((List.range n).map (fun i : Nat => (i : Int) + 1)).filter (fun x => decide (a ≤ x) && decide (x < b))).foldl insertShown hs

theorem simpleExpand_contract (n : Nat) : ExpandContract n (simpleExpand n) := by
  intro hs a b ho
  obtain ⟨h1, h2, h3⟩ := insertAll_ok
    (((List.range n).map (fun i : Nat => (i : Int) + 1)).filter (fun x => decide (a ≤ x) && decide (x < b))) hs ho
  refine ⟨h1, fun l => ?_, fun h hm => ⟨h, h3 h hm, Int.le_refl _, Int.le_refl _⟩⟩
  unfold simpleExpand
  rw [h2 l]
  refine or_congr Iff.rfl ?_
  simp only [List.mem_filter, List.mem_map, List.mem_range, Bool.and_eq_true, decide_eq_true_eq]
  constructor
  · rintro ⟨⟨i, hi, rfl⟩, h4, h5⟩
    omega
  · rintro ⟨h4, h5, h6, h7⟩
    exact ⟨⟨(l - 1).toNat, by omega, by omega⟩, h4, h5⟩

namespace DiffViewEx
/-- A file of 60 lines with changes around lines 3 and 30; the function is in lines 10 to 50. -/
def file : List VHunk := [⟨1, 6⟩, ⟨27, 7⟩]
theorem ordered : OrderedHunks file := by unfold OrderedHunks; decide
def hunks : List VHunk := initialHunks (simpleExpand 60) (fun _ l => l) (fileHunks (some file) 10) 10 50 none

/-- There are buttons for the lines 11 to 26 and 34 to 49; the change before the function is not displayed. -/
example : hunks = [⟨10, 1⟩, ⟨27, 7⟩, ⟨50, 1⟩] ∧ expandButtons hunks = [(11, 26), (34, 49)] := by decide

/-- Line 40 becomes visible by a click. -/
example : ¬ ShownLine hunks 40 ∧ ∃ i, ShownLine (clickExpand (simpleExpand 60) hunks i) 40 := by
  have hn : ¬ ShownLine hunks 40 := by
    rintro ⟨h, hm, hi⟩
    have hh : hunks = [⟨10, 1⟩, ⟨27, 7⟩, ⟨50, 1⟩] := by decide
    rw [hh] at hm
    unfold InHunk at hi
    simp only [List.mem_cons, List.not_mem_nil, or_false] at hm
    rcases hm with rfl | rfl | rfl <;> dsimp only at hi <;> omega
  refine ⟨hn, ?_⟩
  rcases (C183_every_line (simpleExpand_contract 60) (fun _ l => l) (some file) (fun _ h => by cases h; exact ordered) 10 50 (by decide)
    (by decide) (by decide) none [] 40 (by decide) (by decide)).1 with h | h
  · exact absurd h hn
  · exact h

/-- The change in line 30 is displayed. -/
example : ∃ h' ∈ hunks, InsideHunk ⟨27, 7⟩ h' :=
  (C183_changes (simpleExpand_contract 60) (fun _ l => l) (some file) (fun _ h => by cases h; exact ordered) 10 50 (by decide)
    (by decide) (by decide) none).2.2 ⟨27, 7⟩ (by decide) ⟨30, by unfold InHunk; decide, by decide, by decide⟩

/-- A call in line 45 is displayed with its context. -/
example : ShownLine (initialHunks (simpleExpand 60) (fun _ l => l) (fileHunks (some file) 10) 10 50 (some (45, 45))) 36 :=
  C183_calls (simpleExpand_contract 60) (fun _ l => l) (some file) (fun _ h => by cases h; exact ordered) 10 50 (by decide)
    (by decide) (by decide) 45 45 36 (by decide) (by decide) (.inr (.inl (by decide)))

/-- Without differences the first and the last line are displayed, with a button for the rest. -/
example : ∃ i, ShownLine (clickExpand (simpleExpand 60) (initialHunks (simpleExpand 60) (fun _ l => l) (fileHunks none 10) 10 50 none) i) 40 := by
  rcases (C183_every_line (simpleExpand_contract 60) (fun _ l => l) none (fun _ h => nomatch h) 10 50 (by decide)
    (by decide) (by decide) none [] 40 (by decide) (by decide)).1 with ⟨h, hm, hi⟩ | h
  · have hh : initialHunks (simpleExpand 60) (fun _ l => l) (fileHunks none 10) 10 50 none = [⟨10, 1⟩, ⟨50, 1⟩] := by decide
    rw [List.foldl_nil, hh] at hm
    unfold InHunk at hi
    simp only [List.mem_cons, List.not_mem_nil, or_false] at hm
    rcases hm with rfl | rfl <;> dsimp only at hi <;> omega
  · exact h
end DiffViewEx

end DK
