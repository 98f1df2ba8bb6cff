import Verif.Spec.AsmDiff
import Verif.Props.Identifier
import Verif.Props.Abstractions

/-! C184: every difference of inline assembly is shown. -/

set_option autoImplicit false

namespace DK
open Spec

/-- **C184** With the option for assembly, the search does not end the run, the differences that are found have
different names, and for each pair of calls of inline assembly that differ in the text or in the constraints there is
a difference with both texts, the names of all arguments and the places of both functions. -/
def C184_statement : Prop :=
  ∀ (fields : Str → Nat → Option Str) (members : Str → Nat → IdTy) (ps : List (AsmCall × AsmCall)),
    (∀ p ∈ ps, (∀ v ∈ p.1.args, SimpleVal members v) ∧ ∀ v ∈ p.2.args, SimpleVal members v) →
    ∃ reports, findAsms fields true 0 ps = .ok reports ∧ (reports.flatten.map MDiff.name).Nodup ∧
      ∀ (i : Nat) (l r : AsmCall) (tL cL tR cR : Str), ps[i]? = some (l, r) → Executes l tL cL → Executes r tR cR →
        (tL, cL) ≠ (tR, cR) → ∃ ds d, reports[i]? = some ds ∧ d ∈ ds ∧ ShowsBoth fields members l r tL tR d

namespace AsmEx
def noFields : Str → Nat → Option Str := fun _ _ => none
def noMembers : Str → Nat → IdTy := fun _ _ => .other
/-- A call of the assembly with the given text and constraints on the variable `x`. -/
def call (text constraints : Str) (place : Option (Str × Nat)) : AsmCall :=
  ⟨some ⟨str! "simpll__inlineasm.0", .func text constraints⟩, [.plain (str! "x")], place⟩
def here : Option (Str × Nat) := some (str! "a.c", 7)
theorem args (t c : Str) (p : Option (Str × Nat)) : ∀ v ∈ (call t c p).args, SimpleVal noMembers v := by
  intro v hv
  have : v = .plain (str! "x") := by simpa [call] using hv
  subst this
  exact (by decide : ¬ (str! "x").head? = some '&')
theorem executes (t c : Str) (p : Option (Str × Nat)) : Executes (call t c p) t c := ⟨_, by decide, rfl⟩
end AsmEx

/-- **C184 fails**: the assembly differs in its constraints only. The comparison of the called functions gives a
difference, but none is shown. -/
theorem C184_fails : ¬ C184_statement := by
  intro h
  obtain ⟨reports, hr, -, hs⟩ := h AsmEx.noFields AsmEx.noMembers
    [(AsmEx.call (str! "nop") (str! "r") AsmEx.here, AsmEx.call (str! "nop") (str! "m") AsmEx.here)]
    (by intro p hp
        have : p = (AsmEx.call (str! "nop") (str! "r") AsmEx.here, AsmEx.call (str! "nop") (str! "m") AsmEx.here) := by
          simpa using hp
        subst this
        exact ⟨AsmEx.args _ _ _, AsmEx.args _ _ _⟩)
  have hc : findAsms AsmEx.noFields true 0
      [(AsmEx.call (str! "nop") (str! "r") AsmEx.here, AsmEx.call (str! "nop") (str! "m") AsmEx.here)] = .ok [[]] := rfl
  rw [hc] at hr
  cases hr
  obtain ⟨ds, d, hd, hm, -⟩ := hs 0 _ _ _ _ _ _ rfl (AsmEx.executes _ _ _) (AsmEx.executes _ _ _) (by decide)
  cases hd
  cases hm

/-- The functions of the witness are found to be different. -/
example : cmpByName ⟨str! "simpll__inlineasm.0", .func (str! "nop") (str! "r")⟩
    ⟨str! "simpll__inlineasm.0", .func (str! "nop") (str! "m")⟩ = false := by decide

/-- **C184 fails**: the process ends if a function with different assembly has no debug information. -/
theorem C184_fails_noinfo : ¬ C184_statement := by
  intro h
  obtain ⟨reports, hr, -⟩ := h AsmEx.noFields AsmEx.noMembers
    [(AsmEx.call (str! "nop") (str! "r") none, AsmEx.call (str! "hlt") (str! "r") AsmEx.here)]
    (by intro p hp
        have : p = (AsmEx.call (str! "nop") (str! "r") none, AsmEx.call (str! "hlt") (str! "r") AsmEx.here) := by
          simpa using hp
        subst this
        exact ⟨AsmEx.args _ _ _, AsmEx.args _ _ _⟩)
  have hc : findAsms AsmEx.noFields true 0
      [(AsmEx.call (str! "nop") (str! "r") none, AsmEx.call (str! "hlt") (str! "r") AsmEx.here)] =
        .error .nullPointer := rfl
  rw [hc] at hr
  cases hr

private theorem textIn_infix {p s : Str} : TextIn p s ↔ p <:+: s :=
  ⟨fun ⟨a, b, h⟩ => ⟨a, b, h.symm⟩, fun ⟨a, b, h⟩ => ⟨a, b, h.symm⟩⟩

private theorem asmArgText_ok {fields : Str → Nat → Option Str} {members : Str → Nat → IdTy} (vs : List IdVal)
    (hv : ∀ v ∈ vs, SimpleVal members v) (acc : Str) :
    ∃ t, asmArgText fields acc vs = .ok t ∧ acc <:+: t ∧ ∀ v ∈ vs, ∀ m ∈ mentioned fields members v, m <:+: t := by
  induction vs generalizing acc with
  | nil => exact ⟨acc, rfl, List.infix_refl _, by simp⟩
  | cons v vs ih =>
    obtain ⟨t, ht, hm⟩ := C154_names_partial fields members v (hv v (by simp))
    obtain ⟨u, hu, ha, hms⟩ := ih (fun w hw => hv w (by simp [hw]))
      (if acc = [] then acc ++ t else acc ++ str! ", " ++ t)
    have hacc : acc <:+: (if acc = [] then acc ++ t else acc ++ str! ", " ++ t) := by
      split
      · exact (List.prefix_append _ _).isInfix
      · rw [List.append_assoc]; exact (List.prefix_append _ _).isInfix
    have htt : t <:+: (if acc = [] then acc ++ t else acc ++ str! ", " ++ t) := by
      split
      · exact (List.suffix_append _ _).isInfix
      · exact (List.suffix_append _ _).isInfix
    refine ⟨u, by simp only [asmArgText, ht]; exact hu, hacc.trans ha, ?_⟩
    intro w hw m hm'
    rcases List.mem_cons.1 hw with h | h
    · subst h
      exact ((textIn_infix.1 (hm m hm')).trans htt).trans ha
    · exact hms w h m hm'

private theorem text_of {c : AsmCall} {t k : Str} (h : Executes c t k) : c.text? = some t := by
  obtain ⟨n, hn, he⟩ := h
  simp [AsmCall.text?, he, GVal.asm?, hn]

private theorem of_text {c : AsmCall} {t : Str} (h : c.text? = some t) : ∃ k, Executes c t k := by
  cases hc : c.callee with
  | none => simp [AsmCall.text?, hc] at h
  | some g =>
    obtain ⟨name, kind⟩ := g
    cases kind with
    | var b i => simp [AsmCall.text?, hc, GVal.asm?] at h
    | func a k =>
      by_cases hn : startsWith name asmPrefix = true
      · simp [AsmCall.text?, hc, GVal.asm?, hn] at h
        subst h
        exact ⟨k, name, hn, hc⟩
      · simp [AsmCall.text?, hc, GVal.asm?, hn] at h

/-- The name of the n-th difference of a run. -/
private def asmName (n : Nat) : Str := str! "assembly code " ++ indexText n

private theorem asmName_inj {a b : Nat} (h : asmName a = asmName b) : a = b := by
  have := List.append_cancel_left h
  simp only [indexText] at this
  exact digits_inj (by simpa [Nat.repr] using this)

/-- What one search gives. -/
private theorem findAsm_ok {fields : Str → Nat → Option Str} {members : Str → Nat → IdTy} {l r : AsmCall}
    (hl : Describable members l) (hr : Describable members r) (n : Nat) :
    (findAsm fields n l r = .ok ([], n) ∧
      ∀ tL cL tR cR, Executes l tL cL → Executes r tR cR → tL = tR) ∨
    ∃ d, findAsm fields n l r = .ok ([d], n + 1) ∧ d.name = asmName (n + 1) ∧
      ∃ tL cL tR cR, Executes l tL cL ∧ Executes r tR cR ∧ tL ≠ tR ∧ ShowsBoth fields members l r tL tR d := by
  obtain ⟨hlv, pL, hpL⟩ := hl
  obtain ⟨hrv, pR, hpR⟩ := hr
  cases htl : l.text? with
  | none =>
    refine .inl ⟨by simp [findAsm, htl], ?_⟩
    intro tL cL _ _ h _
    rw [text_of h] at htl
    cases htl
  | some tL =>
    cases htr : r.text? with
    | none =>
      refine .inl ⟨by simp [findAsm, htl, htr], ?_⟩
      intro _ _ tR cR _ h
      rw [text_of h] at htr
      cases htr
    | some tR =>
      by_cases he : tL = tR
      · refine .inl ⟨by simp [findAsm, htl, htr, he], ?_⟩
        intro t1 c1 t2 c2 h1 h2
        rw [text_of h1] at htl
        rw [text_of h2] at htr
        cases htl; cases htr
        exact he
      · obtain ⟨aL, haL, -, hmL⟩ := asmArgText_ok (fields := fields) l.args hlv []
        obtain ⟨aR, haR, -, hmR⟩ := asmArgText_ok (fields := fields) r.args hrv []
        obtain ⟨cL, hcL⟩ := of_text htl
        obtain ⟨cR, hcR⟩ := of_text htr
        refine .inr ⟨_, by simp only [findAsm, htl, htr, he, haL, haR, hpL, hpR, if_false]; rfl, rfl, tL, cL, tR, cR, hcL, hcR, he,
          ⟨?_, ?_, pL.1, pL.2, hpL, rfl⟩, ⟨?_, ?_, pR.1, pR.2, hpR, rfl⟩⟩
        · simp only [List.append_assoc]; exact List.prefix_append _ _
        · intro v hv m hm
          obtain ⟨a, b, hab⟩ := hmL v hv m hm
          exact ⟨tL ++ str! " (args: " ++ a, b ++ str! ")", by rw [← hab]; simp⟩
        · simp only [List.append_assoc]; exact List.prefix_append _ _
        · intro v hv m hm
          obtain ⟨a, b, hab⟩ := hmR v hv m hm
          exact ⟨tR ++ str! " (args: " ++ a, b ++ str! ")", by rw [← hab]; simp⟩

private theorem findAsms_ok {fields : Str → Nat → Option Str} {members : Str → Nat → IdTy}
    (ps : List (AsmCall × AsmCall)) (hp : ∀ p ∈ ps, Describable members p.1 ∧ Describable members p.2) (n : Nat) :
    ∃ reports, findAsms fields true n ps = .ok reports ∧ reports.length = ps.length ∧
      (reports.flatten.map MDiff.name).Nodup ∧ (∀ d ∈ reports.flatten, ∃ k, n < k ∧ d.name = asmName k) ∧
      (∀ (i : Nat) (l r : AsmCall) (tL cL tR cR : Str), ps[i]? = some (l, r) → Executes l tL cL → Executes r tR cR →
        tL ≠ tR → ∃ d, reports[i]? = some [d] ∧ ShowsBoth fields members l r tL tR d) ∧
      ∀ (i : Nat) (ds : List MDiff) (d : MDiff), reports[i]? = some ds → d ∈ ds → ∃ l r tL cL tR cR,
        ps[i]? = some (l, r) ∧ Executes l tL cL ∧ Executes r tR cR ∧ tL ≠ tR ∧ ShowsBoth fields members l r tL tR d := by
  induction ps generalizing n with
  | nil => exact ⟨[], rfl, rfl, by simp, by simp, by simp, by simp⟩
  | cons p ps ih =>
    obtain ⟨h1, h2⟩ := hp p (by simp)
    rcases findAsm_ok (fields := fields) h1 h2 n with ⟨hf, hno⟩ | ⟨d, hf, hd, tL, cL, tR, cR, heL, heR, hne, hs⟩
    · obtain ⟨rs, hrs, hlen, hnd, hnm, hall, honly⟩ := ih (fun q hq => hp q (by simp [hq])) n
      refine ⟨[] :: rs, by simp [findAsms, hf, hrs], by simp [hlen], by simpa using hnd, by simpa using hnm, ?_, ?_⟩
      · intro i l r tL cL tR cR hi hl hr hne
        cases i with
        | zero =>
          simp only [List.getElem?_cons_zero, Option.some.injEq] at hi
          subst hi
          exact absurd (hno _ _ _ _ hl hr) hne
        | succ i =>
          simp only [List.getElem?_cons_succ] at hi ⊢
          exact hall i l r tL cL tR cR hi hl hr hne
      · intro i ds d hi hd
        cases i with
        | zero =>
          simp only [List.getElem?_cons_zero, Option.some.injEq] at hi
          subst hi
          cases hd
        | succ i =>
          simp only [List.getElem?_cons_succ] at hi ⊢
          exact honly i ds d hi hd
    · obtain ⟨rs, hrs, hlen, hnd, hnm, hall, honly⟩ := ih (fun q hq => hp q (by simp [hq])) (n + 1)
      refine ⟨[d] :: rs, by simp [findAsms, hf, hrs], by simp [hlen], ?_, ?_, ?_, ?_⟩
      · rw [List.flatten_cons, List.singleton_append, List.map_cons, List.nodup_cons]
        refine ⟨?_, hnd⟩
        intro hm
        obtain ⟨d', hd', he⟩ := List.mem_map.1 hm
        obtain ⟨k, hk, hkn⟩ := hnm d' hd'
        rw [hkn, hd] at he
        have := asmName_inj he
        omega
      · intro d' hd'
        rw [List.flatten_cons, List.singleton_append] at hd'
        rcases List.mem_cons.1 hd' with h | h
        · subst h; exact ⟨n + 1, by omega, hd⟩
        · obtain ⟨k, hk, hkn⟩ := hnm d' h
          exact ⟨k, by omega, hkn⟩
      · intro i l r tL' cL' tR' cR' hi hl hr hne'
        cases i with
        | zero =>
          simp only [List.getElem?_cons_zero, Option.some.injEq] at hi
          subst hi
          have e1 : some tL = some tL' := by rw [← text_of heL, ← text_of hl]
          have e2 : some tR = some tR' := by rw [← text_of heR, ← text_of hr]
          cases e1; cases e2
          exact ⟨d, rfl, hs⟩
        | succ i =>
          simp only [List.getElem?_cons_succ] at hi ⊢
          exact hall i l r tL' cL' tR' cR' hi hl hr hne'
      · intro i ds d' hi hd'
        cases i with
        | zero =>
          simp only [List.getElem?_cons_zero, Option.some.injEq] at hi
          subst hi
          rw [List.mem_singleton] at hd'
          subst hd'
          exact ⟨p.1, p.2, tL, cL, tR, cR, rfl, heL, heR, hne, hs⟩
        | succ i =>
          simp only [List.getElem?_cons_succ] at hi ⊢
          exact honly i ds d' hi hd'

/-- **C184 (partial)** If all functions with calls of inline assembly have debug information and their arguments have
texts: the search succeeds, the differences of the run have different names, and for each pair of calls of assembly
with different texts exactly one difference is shown. Missing: assembly that differs in the constraints only, and
functions without debug information, see `C184_fails` and `C184_fails_noinfo`. -/
theorem C184_shown_partial (fields : Str → Nat → Option Str) (members : Str → Nat → IdTy) (ps : List (AsmCall × AsmCall))
    (hp : ∀ p ∈ ps, Describable members p.1 ∧ Describable members p.2) :
    ∃ reports, findAsms fields true 0 ps = .ok reports ∧ (reports.flatten.map MDiff.name).Nodup ∧
      ∀ (i : Nat) (l r : AsmCall) (tL cL tR cR : Str), ps[i]? = some (l, r) → Executes l tL cL → Executes r tR cR →
        tL ≠ tR → ∃ d, reports[i]? = some [d] ∧ ShowsBoth fields members l r tL tR d := by
  obtain ⟨rs, h1, -, h2, -, h3, -⟩ := findAsms_ok (fields := fields) ps hp 0
  exact ⟨rs, h1, h2, h3⟩

/-- **C184 (partial)** Conversely, each difference that is shown belongs to the pair of calls it was searched for, and
they execute assembly with different texts. -/
theorem C184_only_partial (fields : Str → Nat → Option Str) (members : Str → Nat → IdTy) (ps : List (AsmCall × AsmCall))
    (hp : ∀ p ∈ ps, Describable members p.1 ∧ Describable members p.2) (reports : List (List MDiff))
    (h : findAsms fields true 0 ps = .ok reports) :
    reports.length = ps.length ∧
    ∀ (i : Nat) (ds : List MDiff) (d : MDiff), reports[i]? = some ds → d ∈ ds → ∃ l r tL cL tR cR,
      ps[i]? = some (l, r) ∧ Executes l tL cL ∧ Executes r tR cR ∧ tL ≠ tR ∧ ShowsBoth fields members l r tL tR d := by
  obtain ⟨rs, h1, hl, -, -, -, h3⟩ := findAsms_ok (fields := fields) ps hp 0
  rw [h] at h1
  cases h1
  exact ⟨hl, h3⟩

/-- **C184 (partial)** Without the option nothing is searched, whatever the functions are. -/
theorem C184_off_partial (fields : Str → Nat → Option Str) (n : Nat) (ps : List (AsmCall × AsmCall)) :
    findAsms fields false n ps = .ok (ps.map fun _ => []) := by
  induction ps generalizing n with
  | nil => rfl
  | cons p ps ih => simp [findAsms, ih]

/-- Two pairs of calls; the second pair has equal texts. -/
example : (∀ p ∈ [(AsmEx.call (str! "nop") (str! "r") AsmEx.here, AsmEx.call (str! "hlt") (str! "r") AsmEx.here),
      (AsmEx.call (str! "nop") (str! "r") AsmEx.here, AsmEx.call (str! "nop") (str! "r") AsmEx.here)],
      Describable AsmEx.noMembers p.1 ∧ Describable AsmEx.noMembers p.2) ∧
    findAsms AsmEx.noFields true 0
      [(AsmEx.call (str! "nop") (str! "r") AsmEx.here, AsmEx.call (str! "hlt") (str! "r") AsmEx.here),
       (AsmEx.call (str! "nop") (str! "r") AsmEx.here, AsmEx.call (str! "nop") (str! "r") AsmEx.here)] =
      .ok [[{ name := str! "assembly code 1", bodyL := str! "nop (args: x)", bodyR := str! "hlt (args: x)",
              stackL := [(str! "(generated assembly code)", str! "a.c", 7)],
              stackR := [(str! "(generated assembly code)", str! "a.c", 7)] }], []] := by
  refine ⟨?_, rfl⟩
  intro p hp
  simp only [List.mem_cons, List.not_mem_nil, or_false] at hp
  rcases hp with h | h <;> subst h <;> exact ⟨⟨AsmEx.args _ _ _, _, rfl⟩, ⟨AsmEx.args _ _ _, _, rfl⟩⟩

namespace AsmEx
def diffOf (tL tR : Str) : MDiff :=
  { name := str! "assembly code 1", bodyL := tL ++ str! " (args: x)", bodyR := tR ++ str! " (args: x)"
    stackL := [(str! "(generated assembly code)", str! "a.c", 7)]
    stackR := [(str! "(generated assembly code)", str! "a.c", 7)] }
end AsmEx

/-- The names are different in one run only: the next run begins with the same number. -/
theorem C184_names_repeat : ∃ (fields : Str → Nat → Option Str) (p q : AsmCall × AsmCall) (d e : MDiff), d ≠ e ∧ d.name = e.name ∧
    findAsms fields true 0 [p] = .ok [[d]] ∧ findAsms fields true 0 [q] = .ok [[e]] :=
  ⟨AsmEx.noFields, (AsmEx.call (str! "nop") (str! "r") AsmEx.here, AsmEx.call (str! "hlt") (str! "r") AsmEx.here),
    (AsmEx.call (str! "hlt") (str! "r") AsmEx.here, AsmEx.call (str! "nop") (str! "r") AsmEx.here),
    AsmEx.diffOf (str! "nop") (str! "hlt"), AsmEx.diffOf (str! "hlt") (str! "nop"), by decide, rfl, rfl, rfl⟩

end DK
