import Verif.Lemmas.Text
import Verif.Spec.Building
import Verif.Props.Text

/-! Properties of the compiler wrapper: C32, C33. -/

set_option autoImplicit false

namespace DK
open Spec

/-! ### Phase 1 -/

private abbrev dashO : Str := str! "-o"

/-- The argument given to clang for an argument. -/
def outArg (linking : Bool) (prev : Option Str) (arg : Str) : Str :=
  if prev = some dashO then
    if isObject arg = true ∧ linking = false then rsplitDot arg ++ str! ".ll"
    else if isObject arg = false ∧ linking = true then arg ++ str! ".llw" else arg
  else if isObject arg = true ∧ linking = true then rsplitDot arg ++ str! ".ll" else arg

theorem phase1Step_argv (drop : List Str) (link : Str) (linking : Bool) (st : Phase1) (prev : Option Str) (arg : Str) :
    (phase1Step drop link linking st prev arg).argv = if arg ∈ drop then st.argv else st.argv ++ [outArg linking prev arg] := by
  unfold phase1Step outArg
  by_cases h : arg ∈ drop
  · rw [if_pos h, if_pos h]
  · rw [if_neg h, if_neg h]
    by_cases hp : prev = some dashO
    · rw [if_pos hp, if_pos hp]
      cases ho : isObject arg <;> cases linking <;> simp
    · rw [if_neg hp, if_neg hp]
      cases ho : isObject arg <;> cases linking <;> simp <;> split <;> rfl

theorem phase1Step_out (drop : List Str) (link : Str) (linking : Bool) (st : Phase1) (prev : Option Str) (arg : Str) :
    (phase1Step drop link linking st prev arg).out =
      if arg ∉ drop ∧ prev = some dashO then some (outArg linking prev arg) else st.out := by
  unfold phase1Step outArg
  by_cases h : arg ∈ drop
  · simp [h]
  · by_cases hp : prev = some dashO
    · cases ho : isObject arg <;> cases linking <;> simp [h, hp]
    · cases ho : isObject arg <;> cases linking <;> cases endsWith arg (str! ".c") <;> simp [h, hp]

theorem phase1Step_compile (drop : List Str) (link : Str) (st : Phase1) (prev : Option Str) (arg : Str) :
    (phase1Step drop link false st prev arg).clang = st.clang ∧ (phase1Step drop link false st prev arg).sources = st.sources := by
  unfold phase1Step
  by_cases h : arg ∈ drop
  · simp [h]
  · by_cases hp : prev = some dashO <;> simp [h, hp]

theorem phase1Loop_compile (drop : List Str) (link : Str) (as : List Str) : ∀ (st : Phase1) (prev : Option Str),
    (phase1Loop drop link false st prev as).clang = st.clang ∧ (phase1Loop drop link false st prev as).sources = st.sources := by
  induction as with
  | nil => intro st prev; exact ⟨rfl, rfl⟩
  | cons a as ih =>
    intro st prev
    obtain ⟨h1, h2⟩ := ih (phase1Step drop link false st prev a) (some a)
    obtain ⟨h3, h4⟩ := phase1Step_compile drop link st prev a
    rw [phase1Loop]
    exact ⟨h1.trans h3, h2.trans h4⟩

theorem phase1Step_clang (drop : List Str) (link : Str) (linking : Bool) (st : Phase1) (prev : Option Str) (arg : Str) :
    (phase1Step drop link linking st prev arg).clang = st.clang ∨ (phase1Step drop link linking st prev arg).clang = link := by
  unfold phase1Step
  by_cases h : arg ∈ drop
  · simp [h]
  · by_cases hp : prev = some dashO
    · simp [h, hp]
    · cases ho : isObject arg <;> cases linking <;> cases endsWith arg (str! ".c") <;> simp [h, hp]

theorem phase1Loop_clang (drop : List Str) (link : Str) (linking : Bool) (as : List Str) : ∀ (st : Phase1) (prev : Option Str),
    (phase1Loop drop link linking st prev as).clang = st.clang ∨ (phase1Loop drop link linking st prev as).clang = link := by
  induction as with
  | nil => intro st prev; exact .inl rfl
  | cons a as ih =>
    intro st prev
    rw [phase1Loop]
    rcases ih (phase1Step drop link linking st prev a) (some a) with h | h
    · rcases phase1Step_clang drop link linking st prev a with h' | h'
      · exact .inl (h.trans h')
      · exact .inr (h.trans h')
    · exact .inr h

/-- The arguments for clang. -/
def outArgs (drop : List Str) (linking : Bool) : Option Str → List Str → List Str
  | _, [] => []
  | prev, a :: as => if a ∈ drop then outArgs drop linking (some a) as else outArg linking prev a :: outArgs drop linking (some a) as

theorem phase1Loop_argv (drop : List Str) (link : Str) (linking : Bool) (as : List Str) : ∀ (st : Phase1) (prev : Option Str),
    (phase1Loop drop link linking st prev as).argv = st.argv ++ outArgs drop linking prev as := by
  induction as with
  | nil => intro st prev; simp [phase1Loop, outArgs]
  | cons a as ih =>
    intro st prev
    rw [phase1Loop, ih, phase1Step_argv, outArgs]
    by_cases h : a ∈ drop
    · rw [if_pos h, if_pos h]
    · rw [if_neg h, if_neg h]; simp

theorem phase1Loop_append (drop : List Str) (link : Str) (linking : Bool) (as bs : List Str) : ∀ (st : Phase1) (prev : Option Str),
    phase1Loop drop link linking st prev (as ++ bs) =
      phase1Loop drop link linking (phase1Loop drop link linking st prev as) (as.getLast?.or prev) bs := by
  induction as with
  | nil => intro st prev; simp [phase1Loop]
  | cons a as ih =>
    intro st prev
    rw [List.cons_append, phase1Loop, ih, phase1Loop, List.getLast?_cons]
    cases as.getLast? <;> rfl

/-- Lists without `-o` give no output. -/
theorem phase1Loop_out_free (drop : List Str) (link : Str) (linking : Bool) (as : List Str) (h : NoOutput as) :
    ∀ (st : Phase1) (prev : Option Str), prev ≠ some dashO →
    (phase1Loop drop link linking st prev as).out = st.out := by
  induction as with
  | nil => intro st prev _; rfl
  | cons a as ih =>
    intro st prev hp
    have ha : some a ≠ some dashO := by
      intro he; cases he; exact h dashO List.mem_cons_self ⟨[], rfl⟩
    rw [phase1Loop, ih (fun x hx => h x (List.mem_cons_of_mem _ hx)) _ _ ha, phase1Step_out, if_neg (fun hh => hp hh.2)]

/-- Object files have a dot. -/
theorem rsplitDot_prefix {a : Str} (h : isObject a = true) : ∃ suf, a = rsplitDot a ++ '.' :: suf ∧ '.' ∉ suf := by
  have key : ∀ pre suf : Str, '.' ∉ suf → a = pre ++ '.' :: suf → ∃ suf, a = rsplitDot a ++ '.' :: suf ∧ '.' ∉ suf := by
    rintro pre suf hs rfl
    exact ⟨suf, by rw [rsplitDot, splitLastDot_append pre suf hs], hs⟩
  unfold isObject at h
  simp only [Bool.or_eq_true, endsWith_iff] at h
  rcases h with (⟨r, h⟩ | ⟨r, h⟩) | ⟨r, h⟩
  · exact key r ['o'] (by decide) h
  · exact key r ['l', 'o'] (by decide) h
  · exact key r ['k', 'o'] (by decide) h

theorem rsplitDot_dot (pre suf : Str) (h : '.' ∉ suf) : rsplitDot (pre ++ '.' :: suf) = pre := by
  rw [rsplitDot, splitLastDot_append pre suf h]

/-- Arguments that do not start with `-o` are not changed to such. -/
theorem outArg_free {linking : Bool} {prev : Option Str} {a : Str} (h : ¬ ∃ x, a = dashO ++ x) :
    ¬ ∃ x, outArg linking prev a = dashO ++ x := by
  have key : ∀ suf, (suf = str! ".ll") → isObject a = true → ¬ ∃ x, rsplitDot a ++ suf = dashO ++ x := by
    rintro suf rfl ho ⟨x, hx⟩
    obtain ⟨s, hs, _⟩ := rsplitDot_prefix ho
    generalize hq : rsplitDot a = q at *
    match q, hx with
    | [], hx => simp at hx
    | [c], hx => simp at hx
    | c :: d :: q, hx =>
      simp only [List.cons_append, List.nil_append, List.cons.injEq] at hx
      obtain ⟨rfl, rfl, _⟩ := hx
      exact h ⟨q ++ '.' :: s, by rw [hs]; rfl⟩
  have key2 : ¬ ∃ x, a ++ (str! ".llw") = dashO ++ x := by
    rintro ⟨x, hx⟩
    match a, h, hx with
    | [], _, hx => simp at hx
    | [c], _, hx => simp at hx
    | c :: d :: q, h, hx =>
      simp only [List.cons_append, List.nil_append, List.cons.injEq] at hx
      obtain ⟨rfl, rfl, _⟩ := hx
      exact h ⟨q, rfl⟩
  unfold outArg
  by_cases hp : prev = some dashO
  · rw [if_pos hp]
    by_cases h1 : isObject a = true ∧ linking = false
    · rw [if_pos h1]; exact key _ rfl h1.1
    · rw [if_neg h1]
      by_cases h2 : isObject a = false ∧ linking = true
      · rw [if_pos h2]; exact key2
      · rw [if_neg h2]; exact h
  · rw [if_neg hp]
    by_cases h1 : isObject a = true ∧ linking = true
    · rw [if_pos h1]; exact key _ rfl h1.1
    · rw [if_neg h1]; exact h

theorem outArgs_free {drop : List Str} {linking : Bool} {as : List Str} (h : NoOutput as) :
    ∀ prev, NoOutput (outArgs drop linking prev as) := by
  induction as with
  | nil => intro prev a ha; simp [outArgs] at ha
  | cons a as ih =>
    intro prev
    have ih := ih (fun x hx => h x (List.mem_cons_of_mem _ hx)) (some a)
    rw [outArgs]
    split
    · exact ih
    · intro x hx
      rcases List.mem_cons.1 hx with rfl | hx
      · exact outArg_free (h a List.mem_cons_self)
      · exact ih x hx

theorem outArgs_append (drop : List Str) (linking : Bool) (as bs : List Str) : ∀ prev,
    outArgs drop linking prev (as ++ bs) = outArgs drop linking prev as ++ outArgs drop linking (as.getLast?.or prev) bs := by
  induction as with
  | nil => intro prev; simp [outArgs]
  | cons a as ih =>
    intro prev
    rw [List.cons_append, outArgs, outArgs, ih, List.getLast?_cons]
    have : (some (as.getLast?.getD a)).or prev = (as.getLast?).or (some a) := by cases as.getLast? <;> rfl
    rw [this]
    split <;> simp

/-! ### Lists of arguments with outputs that are LLVM files -/

/-- Each `-o` has an argument, which satisfies `Q`; no other argument starts with `-o`. -/
def GoodArgs (Q : Str → Prop) : Bool → List Str → Prop
  | flag, [] => flag = false
  | flag, x :: l => (flag = true → Q x) ∧ ((∃ y, x = dashO ++ y) → x = dashO) ∧ GoodArgs Q (decide (x = dashO)) l

theorem goodArgs_free {Q : Str → Prop} {l : List Str} (h : NoOutput l) : GoodArgs Q false l := by
  induction l with
  | nil => rfl
  | cons x l ih =>
    have hx : x ≠ dashO := fun he => h x List.mem_cons_self ⟨[], by rw [he]; rfl⟩
    refine ⟨by simp, fun he => absurd he (h x List.mem_cons_self), ?_⟩
    rw [decide_eq_false hx]
    exact ih (fun y hy => h y (List.mem_cons_of_mem _ hy))

theorem goodArgs_append {Q : Str → Prop} {l r : List Str} : ∀ flag, GoodArgs Q flag l → GoodArgs Q false r → GoodArgs Q flag (l ++ r) := by
  induction l with
  | nil => intro flag h hr; cases h; exact hr
  | cons x l ih => intro flag h hr; exact ⟨h.1, h.2.1, ih _ h.2.2 hr⟩

theorem goodArgs_filter {Q : Str → Prop} {p : Str → Bool} (hp : ∀ x, Q x → p x = true) (ho : p dashO = true) {l : List Str} :
    ∀ flag, GoodArgs Q flag l → GoodArgs Q flag (l.filter p) := by
  induction l with
  | nil => intro flag h; exact h
  | cons x l ih =>
    intro flag h
    have ih := ih _ h.2.2
    rw [List.filter_cons]
    by_cases hx : p x = true
    · rw [if_pos hx]; exact ⟨h.1, h.2.1, ih⟩
    · rw [if_neg hx]
      have hne : x ≠ dashO := fun he => hx (he ▸ ho)
      have hf : flag = false := by
        cases flag with
        | false => rfl
        | true => exact absurd (hp x (h.1 rfl)) hx
      rw [decide_eq_false hne] at ih
      rw [hf]; exact ih

theorem goodArgs_keepExisting {Q : Str → Prop} (files : Files) (cwd : Str) {l : List Str} :
    ∀ flag, GoodArgs Q flag l → GoodArgs Q flag (keepExisting files cwd flag l) := by
  induction l with
  | nil => intro flag h; exact h
  | cons x l ih =>
    intro flag h
    have ih := ih _ h.2.2
    rw [keepExisting]
    by_cases hx : flag = true ∨ (files (pathJoin cwd x)).isSome = true ∨ x = dashO
    · simp only [if_pos hx]; exact ⟨h.1, h.2.1, ih⟩
    · simp only [if_neg hx]
      push Not at hx
      rw [decide_eq_false hx.2.2] at ih ⊢
      have hf : flag = false := by simpa using hx.1
      rw [hf]; exact ih

/-- Only LLVM files may be written with such arguments. -/
theorem goodArgs_mayWrite {l : List Str} {cwd p : Str} (h : GoodArgs (fun x => ∀ c, LlvmFile (pathJoin c x)) false l)
    (hw : MayWrite l cwd p) : LlvmFile p := by
  have key : ∀ (l : List Str) flag, GoodArgs (fun x => ∀ c, LlvmFile (pathJoin c x)) flag l →
      (∀ a x b, l = a ++ dashO :: x :: b → ∀ c, LlvmFile (pathJoin c x)) ∧ (∀ x, (dashO ++ x) ∈ l → x = []) := by
    intro l
    induction l with
    | nil => intro flag _; exact ⟨fun a x b h => absurd (congrArg List.length h) (by simp), fun x hx => by simp at hx⟩
    | cons y l ih =>
      intro flag h
      obtain ⟨h1, h2, h3⟩ := h
      obtain ⟨i1, i2⟩ := ih _ h3
      refine ⟨fun a x b he => ?_, fun x hx => ?_⟩
      · cases a with
        | nil =>
          simp only [List.nil_append, List.cons.injEq] at he
          obtain ⟨rfl, rfl⟩ := he
          exact h3.1 (by simp)
        | cons z a =>
          simp only [List.cons_append, List.cons.injEq] at he
          exact i1 a x b he.2
      · rcases List.mem_cons.1 hx with hx | hx
        · have := h2 ⟨x, hx.symm⟩
          rw [← hx] at this
          have hl := congrArg List.length this
          simpa using hl
        · exact i2 x hx
  obtain ⟨k1, k2⟩ := key l false h
  rcases hw with ⟨a, x, b, he, rfl⟩ | ⟨x, hx, hm, rfl⟩ | ⟨_, x, rfl⟩
  · exact k1 a x b he cwd
  · exact absurd (k2 x hm) hx
  · exact ⟨x, .inl rfl⟩

theorem pathJoin_suffix (c a s : Str) : ∃ x, pathJoin c (a ++ s) = x ++ s := by
  unfold pathJoin
  split
  · exact ⟨a, rfl⟩
  · split
    · exact ⟨c ++ a, by simp⟩
    · exact ⟨c ++ '/' :: a, by simp⟩

theorem llvmFile_join {x : Str} (h : endsWith x (str! ".ll") = true ∨ endsWith x (str! ".llw") = true) (c : Str) :
    LlvmFile (pathJoin c x) := by
  rcases h with h | h
  · obtain ⟨r, rfl⟩ := endsWith_iff.1 h
    obtain ⟨y, hy⟩ := pathJoin_suffix c r (str! ".ll")
    exact ⟨y, .inl hy⟩
  · obtain ⟨r, rfl⟩ := endsWith_iff.1 h
    obtain ⟨y, hy⟩ := pathJoin_suffix c r (str! ".llw")
    exact ⟨y, .inr hy⟩

/-! ### The result of phase 1 -/

/-- Before the removal of object files in the hybrid mode. -/
private def phase1Raw (drop : List Str) (clang link : Str) (args : List Str) : Phase1 :=
  phase1Loop drop link (decide ((str! "-c") ∉ (str! "gcc") :: args))
    (phase1Step drop link (decide ((str! "-c") ∉ (str! "gcc") :: args)) ⟨[], none, clang, false⟩ none (str! "gcc")) none args

private theorem phase1_eq (drop : List Str) (clang link : Str) (args : List Str) :
    phase1 drop clang link ((str! "gcc") :: args) =
      if (phase1Raw drop clang link args).sources = true ∧ (phase1Raw drop clang link args).clang = link then
        { phase1Raw drop clang link args with
          clang := clang, argv := (phase1Raw drop clang link args).argv.filter (fun a => !endsWith a (str! ".ll")) }
      else phase1Raw drop clang link args := rfl

private theorem raw_argv {drop : List Str} (clang link : Str) (args : List Str) (hg : (str! "gcc") ∉ drop) :
    (phase1Raw drop clang link args).argv =
      (str! "gcc") :: outArgs drop (decide ((str! "-c") ∉ (str! "gcc") :: args)) none args := by
  unfold phase1Raw
  rw [phase1Loop_argv, phase1Step_argv, if_neg hg]
  have : ∀ b, outArg b none (str! "gcc") = str! "gcc" := by decide
  rw [this]; rfl

private theorem raw_out_free {drop : List Str} (clang link : Str) (args : List Str) (h : NoOutput args) :
    (phase1Raw drop clang link args).out = none := by
  unfold phase1Raw
  rw [phase1Loop_out_free _ _ _ _ h _ _ (by simp), phase1Step_out, if_neg (by simp)]

private theorem prev_free {a : List Str} (h : NoOutput a) : a.getLast?.or none ≠ some dashO := by
  intro he
  have : a.getLast? = some dashO := by simpa using he
  exact h dashO (List.mem_of_getLast? this) ⟨[], rfl⟩

private theorem raw_out {drop : List Str} (clang link : Str) (a b : List Str) (o : Str) (ha : NoOutput a) (hb : NoOutput b)
    (ho : o ∉ drop) (hn : ¬ ∃ x, o = dashO ++ x) :
    (phase1Raw drop clang link (a ++ dashO :: o :: b)).out =
      some (outArg (decide ((str! "-c") ∉ (str! "gcc") :: (a ++ dashO :: o :: b))) (some dashO) o) := by
  unfold phase1Raw
  rw [phase1Loop_append, phase1Loop, phase1Loop, phase1Loop_out_free _ _ _ _ hb, phase1Step_out, if_pos ⟨ho, rfl⟩]
  intro he
  cases he
  exact hn ⟨[], rfl⟩

private theorem outArg_dash (linking : Bool) (prev : Option Str) (h : prev ≠ some dashO) : outArg linking prev dashO = dashO := by
  unfold outArg
  rw [if_neg h, if_neg (by rintro ⟨h, _⟩; exact absurd h (by decide))]

private theorem outArgs_split {drop : List Str} (linking : Bool) (a b : List Str) (o : Str) (ha : NoOutput a)
    (hd : dashO ∉ drop) (ho : o ∉ drop) :
    outArgs drop linking none (a ++ dashO :: o :: b) =
      outArgs drop linking none a ++ dashO :: outArg linking (some dashO) o :: outArgs drop linking (some o) b := by
  rw [outArgs_append, outArgs, if_neg hd, outArgs, if_neg ho, outArg_dash _ _ (prev_free ha)]

/-- The outputs among the arguments for clang. -/
private theorem outArgs_good {drop : List Str} {args : List Str} (clang link : Str) (hs : SeparateOutput drop args) (Q : Str → Prop)
    (hQ : ∀ o, (phase1Raw drop clang link args).out = some o → Q o) :
    GoodArgs Q false (outArgs drop (decide ((str! "-c") ∉ (str! "gcc") :: args)) none args) := by
  rcases hs with h | ⟨a, o, b, rfl, ha, hb, hn, hd, ho⟩
  · exact goodArgs_free (outArgs_free h none)
  · rw [outArgs_split _ a b o ha hd ho]
    refine goodArgs_append _ (goodArgs_free (outArgs_free ha none)) ⟨by simp, fun _ => rfl, ?_⟩
    have hne : ∀ lk, outArg lk (some dashO) o ≠ dashO := fun lk he =>
      outArg_free (linking := lk) (prev := some dashO) hn ⟨[], by rw [he]; rfl⟩
    refine ⟨fun _ => hQ _ (raw_out clang link a b o ha hb ho hn), fun he => absurd he (outArg_free hn), ?_⟩
    rw [decide_eq_false (hne _)]
    exact goodArgs_free (outArgs_free hb _)

private theorem not_ll_of_llw {x : Str} (h : endsWith x (str! ".llw") = true) : endsWith x (str! ".ll") = false := by
  obtain ⟨r, rfl⟩ := endsWith_iff.1 h
  rw [← Bool.not_eq_true, endsWith_iff]
  rintro ⟨y, hy⟩
  have := congrArg List.getLast? hy
  simp at this

/-- The arguments for the LLVM tool are such that only LLVM files are written. -/
private theorem phase2_good {drop append : List Str} {clang link cwd : Str} {args cargv : List Str} {files : Files}
    (hg : (str! "gcc") ∉ drop) (hs : SeparateOutput drop args) (ha : NoOutput append)
    (hc : ¬ ∃ x, clang = dashO ++ x) (hl : ¬ ∃ x, link = dashO ++ x)
    (hk : wrapperSkips (phase1 drop clang link ((str! "gcc") :: args)) ((str! "gcc") :: args) = false)
    (h2 : phase2 (phase1 drop clang link ((str! "gcc") :: args)) link append files cwd = some cargv) :
    GoodArgs (fun x => ∀ c, LlvmFile (pathJoin c x)) false cargv := by
  have hout : ∀ o, (phase1Raw drop clang link args).out = some o → endsWith o (str! ".ll") = true ∨ endsWith o (str! ".llw") = true := by
    intro o ho
    have e : (phase1 drop clang link ((str! "gcc") :: args)).out = some o := by
      rw [phase1_eq]; split <;> exact ho
    unfold wrapperSkips at hk
    rw [e] at hk
    simp only [Bool.or_eq_false_iff] at hk
    obtain ⟨⟨hk, _⟩, _⟩ := hk
    by_contra hcon
    push Not at hcon
    simp [hcon.1, hcon.2] at hk
  have hcl : (phase1Raw drop clang link args).clang = clang ∨ (phase1Raw drop clang link args).clang = link := by
    unfold phase1Raw
    rcases phase1Loop_clang drop link (decide ((str! "-c") ∉ (str! "gcc") :: args)) args
      (phase1Step drop link (decide ((str! "-c") ∉ (str! "gcc") :: args)) ⟨[], none, clang, false⟩ none (str! "gcc")) none with h | h
    · rcases phase1Step_clang drop link (decide ((str! "-c") ∉ (str! "gcc") :: args)) ⟨[], none, clang, false⟩ none (str! "gcc") with h' | h'
      · exact .inl (h.trans h')
      · exact .inr (h.trans h')
    · exact .inr h
  -- the first argument and the others
  have hst : ∃ rest cl, (phase1 drop clang link ((str! "gcc") :: args)).argv = (str! "gcc") :: rest ∧
      (phase1 drop clang link ((str! "gcc") :: args)).clang = cl ∧ (cl = clang ∨ cl = link) ∧
      GoodArgs (fun x => endsWith x (str! ".ll") = true ∨ endsWith x (str! ".llw") = true) false rest := by
    rw [phase1_eq]
    by_cases hh : (phase1Raw drop clang link args).sources = true ∧ (phase1Raw drop clang link args).clang = link
    · rw [if_pos hh]
      -- sources are noticed only when linking
      have hlink : decide ((str! "-c") ∉ (str! "gcc") :: args) = true := by
        by_contra hcon
        have hf : decide ((str! "-c") ∉ (str! "gcc") :: args) = false := by simpa using hcon
        have h1 := hh.1
        unfold phase1Raw at h1
        rw [hf, (phase1Loop_compile drop link args _ none).2, (phase1Step_compile drop link _ none _).2] at h1
        exact absurd h1 (by simp)
      have hw : ∀ o, (phase1Raw drop clang link args).out = some o → endsWith o (str! ".llw") = true := by
        intro o ho
        rcases hout o ho with h | h
        · exfalso
          rcases hs with hs | ⟨a, o', b, rfl, ha', hb, hn, hd, ho'⟩
          · rw [raw_out_free clang link args hs] at ho; cases ho
          · rw [raw_out clang link a b o' ha' hb ho' hn, hlink] at ho
            cases ho
            unfold outArg at h
            rw [if_pos rfl, if_neg (by simp)] at h
            by_cases hob : isObject o' = true
            · rw [if_neg (by simp [hob])] at h
              obtain ⟨r, rfl⟩ := endsWith_iff.1 h
              unfold isObject at hob
              simp only [Bool.or_eq_true, endsWith_iff] at hob
              rcases hob with (⟨r', hr⟩ | ⟨r', hr⟩) | ⟨r', hr⟩ <;>
              · have := congrArg List.getLast? hr
                simp at this
            · rw [if_pos ⟨by simpa using hob, rfl⟩] at h
              rw [not_ll_of_llw (endsWith_iff.2 ⟨o', rfl⟩)] at h
              cases h
        · exact h
      refine ⟨(outArgs drop (decide ((str! "-c") ∉ (str! "gcc") :: args)) none args).filter (fun a => !endsWith a (str! ".ll")),
        clang, ?_, rfl, .inl rfl, ?_⟩
      · show (phase1Raw drop clang link args).argv.filter _ = _
        rw [raw_argv clang link args hg, List.filter_cons, if_pos (by decide)]
      · have g1 := outArgs_good clang link hs (fun x => endsWith x (str! ".llw") = true) hw
        have g2 := goodArgs_filter (p := fun a => !endsWith a (str! ".ll")) (fun x hx => by
          show (!endsWith x (str! ".ll")) = true
          rw [not_ll_of_llw hx]; rfl) (by decide) false g1
        have mono : ∀ (l : List Str) flag, GoodArgs (fun x => endsWith x (str! ".llw") = true) flag l →
            GoodArgs (fun x => endsWith x (str! ".ll") = true ∨ endsWith x (str! ".llw") = true) flag l := by
          intro l
          induction l with
          | nil => intro flag h; exact h
          | cons x l ih => intro flag h; exact ⟨fun hf => .inr (h.1 hf), h.2.1, ih _ h.2.2⟩
        exact mono _ _ g2
    · rw [if_neg hh]
      exact ⟨_, _, raw_argv clang link args hg, rfl, hcl, outArgs_good clang link hs _ hout⟩
  obtain ⟨rest, cl, e1, e2, e3, e4⟩ := hst
  have hclo : ¬ ∃ x, cl = dashO ++ x := by
    rcases e3 with rfl | rfl
    · exact hc
    · exact hl
  have hclne : decide (cl = dashO) = false := decide_eq_false (fun he => hclo ⟨[], by rw [he]; rfl⟩)
  have mono : ∀ (l : List Str) flag, GoodArgs (fun x => endsWith x (str! ".ll") = true ∨ endsWith x (str! ".llw") = true) flag l →
      GoodArgs (fun x => ∀ c, LlvmFile (pathJoin c x)) flag l := by
    intro l
    induction l with
    | nil => intro flag h; exact h
    | cons x l ih => intro flag h; exact ⟨fun hf => llvmFile_join (h.1 hf), h.2.1, ih _ h.2.2⟩
  apply mono
  unfold phase2 at h2
  rw [e1, e2] at h2
  simp only at h2
  by_cases hcc : cl ≠ link
  · rw [if_pos hcc] at h2
    cases h2
    refine ⟨by simp, fun h => absurd h hclo, ?_⟩
    rw [hclne]
    refine goodArgs_append _ (goodArgs_append _ e4 (goodArgs_free ha)) (goodArgs_free ?_)
    intro a ha
    simp only [List.mem_cons, List.not_mem_nil, or_false] at ha
    rcases ha with rfl | rfl | rfl <;> (rintro ⟨x, hx⟩; simp at hx)
  · rw [if_neg hcc] at h2
    cases h2
    refine ⟨by simp, fun h => absurd h hclo, ?_⟩
    rw [hclne]
    refine ⟨by simp, fun h => ?_, ?_⟩
    · obtain ⟨x, hx⟩ := h; simp at hx
    · rw [decide_eq_false (by decide)]
      refine goodArgs_keepExisting _ _ _ (goodArgs_filter ?_ ?_ _ e4)
      · rintro x (hx | hx) <;> simp [hx]
      · simp

/-! ### C32 -/

/-- The statement of C32: the real compiler is called with the original arguments, its exit status is the one of the wrapper,
and the files it has written are not changed by the LLVM tools. -/
def C32_statement : Prop :=
  ∀ (env : WrapperEnv) (clang append drop link : Str), EnvSet env clang append drop link →
  ∀ (run : Programs) (cwd : Str) (args : List Str) (files : Files), WritesOutput run clang → WritesOutput run link →
    let gcc := run (str! "gcc") ((str! "gcc") :: args) cwd files
    let r := wrapper env run cwd args files
    r.calls.head? = some (str! "gcc", (str! "gcc") :: args, gcc.2) ∧ r.code = .ok gcc.2 ∧
      ∀ p, ¬ LlvmFile p → r.files p = gcc.1 p

private def testEnv : WrapperEnv := ⟨some (str! "/db"), some (str! "clang"), some (str! "-O1"), some (str! "-g"), some (str! "llvm-link")⟩

private theorem testEnv_set : EnvSet testEnv (str! "clang") (str! "-O1") (str! "-g") (str! "llvm-link") :=
  ⟨by simp [testEnv], rfl, rfl, rfl, rfl⟩

/-- The code does not satisfy C32: the exit status of the compiler is replaced by 1. -/
theorem C32_fails : ¬ C32_statement := by
  intro h
  have := (h testEnv _ _ _ _ testEnv_set (fun _ _ _ f => (f, 2)) (str! "/w") [] (fun _ => none)
    (fun _ _ _ _ hp => absurd rfl hp) (fun _ _ _ _ hp => absurd rfl hp)).2.1
  exact absurd this (by decide)

/-- Run as a Python script, the wrapper succeeds although the compiler has failed. -/
theorem C32_fails_script : ∃ (run : Programs), (run (str! "gcc") [str! "gcc", str! "a.c"] (str! "/w") (fun _ => none)).2 ≠ 0 ∧
    scriptStatus (wrapper testEnv run (str! "/w") [str! "a.c"] (fun _ => none)) = 0 :=
  ⟨fun _ _ _ f => (f, 1), by decide, by decide⟩

/-- The object file is overwritten by the LLVM tool if its name is joined with `-o`. -/
theorem C32_fails_output : ∃ (run : Programs) (args : List Str) (p : Str), WritesOutput run (str! "clang") ∧
    WritesOutput run (str! "llvm-link") ∧ ¬ LlvmFile p ∧
    (wrapper testEnv run (str! "/w") args (fun _ => none)).files p ≠
      (run (str! "gcc") ((str! "gcc") :: args) (str! "/w") (fun _ => none)).1 p := by
  -- gcc and clang write their marks to the file joined with -o
  let run : Programs := fun prog args cwd f =>
    (fun p => if (str! "-oa.o") ∈ args ∧ p = pathJoin cwd (str! "a.o") then some (if prog = str! "gcc" then 1 else 2) else f p, 0)
  have hw : ∀ prog, WritesOutput run prog := by
    intro prog args cwd f p hp
    by_cases hc : (str! "-oa.o") ∈ args ∧ p = pathJoin cwd (str! "a.o")
    · exact .inr (.inl ⟨str! "a.o", by decide, hc.1, hc.2⟩)
    · simp only [run, if_neg hc] at hp
      exact absurd rfl hp
  refine ⟨run, [str! "-c", str! "a.c", str! "-oa.o"], str! "/w/a.o", hw _, hw _, ?_, by decide⟩
  rintro ⟨x, hx | hx⟩ <;>
  · have := congrArg List.getLast? hx
    simp at this

/-- **C32 (partial)** The real compiler is called first, with the original arguments. If it fails, nothing else is run and the
wrapper returns 1; otherwise the wrapper returns 0, and the LLVM tools, if they write only the output they are told to, change no
file except LLVM files. Missing: the exit status (`C32_fails`), the wrapper run as a script (`C32_fails_script`) and outputs that
are joined with `-o` (`C32_fails_output`). -/
theorem C32_transparent_partial (env : WrapperEnv) (clang append drop link : Str) (he : EnvSet env clang append drop link)
    (run : Programs) (cwd : Str) (args : List Str) (files : Files) (hg : (str! "gcc") ∉ splitChar ',' drop) :
    let gcc := run (str! "gcc") ((str! "gcc") :: args) cwd files
    let r := wrapper env run cwd args files
    r.calls.head? = some (str! "gcc", (str! "gcc") :: args, gcc.2) ∧
    (gcc.2 ≠ 0 → r.calls.length = 1 ∧ r.files = gcc.1 ∧ r.code = .ok 1 ∧ r.added = []) ∧
    (gcc.2 = 0 → r.code = .ok 0) ∧
    (SeparateOutput (splitChar ',' drop) args → NoOutput (splitChar ',' append) → NoOutput [clang, link] →
      WritesOutput run clang → WritesOutput run link → ∀ p, ¬ LlvmFile p → r.files p = gcc.1 p) := by
  obtain ⟨db, hdb⟩ := Option.ne_none_iff_exists'.1 he.db
  intro gcc r
  have hr : r = wrapper env run cwd args files := rfl
  have hgcc : gcc = run (str! "gcc") ((str! "gcc") :: args) cwd files := rfl
  unfold wrapper at hr
  rw [hdb, he.clang, he.append, he.drop, he.link] at hr
  simp only [← hgcc] at hr
  by_cases h0 : gcc.2 = 0
  · rw [if_neg (by simpa using h0)] at hr
    cases hk : wrapperSkips (phase1 (splitChar ',' drop) clang link ((str! "gcc") :: args)) ((str! "gcc") :: args) with
    | true =>
      rw [if_pos hk] at hr
      rw [hr]
      exact ⟨rfl, fun h => absurd h0 h, fun _ => rfl, fun _ _ _ _ _ p _ => rfl⟩
    | false =>
      rw [if_neg (by rw [hk]; simp)] at hr
      cases h2 : phase2 (phase1 (splitChar ',' drop) clang link ((str! "gcc") :: args)) link (splitChar ',' append) gcc.1 cwd with
      | none =>
        exfalso
        unfold phase2 at h2
        have : (phase1 (splitChar ',' drop) clang link ((str! "gcc") :: args)).argv ≠ [] := by
          rw [phase1_eq]
          split
          · show (phase1Raw (splitChar ',' drop) clang link args).argv.filter _ ≠ []
            rw [raw_argv clang link args hg, List.filter_cons, if_pos (by decide)]
            simp
          · rw [raw_argv clang link args hg]; simp
        cases hv : (phase1 (splitChar ',' drop) clang link ((str! "gcc") :: args)).argv with
        | nil => exact this hv
        | cons x xs =>
          rw [hv] at h2
          simp only at h2
          split at h2 <;> cases h2
      | some cargv =>
        rw [h2] at hr
        simp only at hr
        have hfiles : ∀ (hso : SeparateOutput (splitChar ',' drop) args) (hna : NoOutput (splitChar ',' append))
            (hcl : NoOutput [clang, link]) (hw1 : WritesOutput run clang) (hw2 : WritesOutput run link) (p : Str), ¬ LlvmFile p →
            (run (phase1 (splitChar ',' drop) clang link ((str! "gcc") :: args)).clang cargv cwd gcc.1).1 p = gcc.1 p := by
          intro hso hna hcl hw1 hw2 p hp
          by_contra hne
          have hgood := phase2_good hg hso hna (hcl clang (by simp)) (hcl link (by simp)) hk h2
          apply hp
          apply goodArgs_mayWrite hgood (cwd := cwd)
          have hc : (phase1 (splitChar ',' drop) clang link ((str! "gcc") :: args)).clang = clang ∨
              (phase1 (splitChar ',' drop) clang link ((str! "gcc") :: args)).clang = link := by
            rw [phase1_eq]
            split
            · exact .inl rfl
            · unfold phase1Raw
              rcases phase1Loop_clang (splitChar ',' drop) link (decide ((str! "-c") ∉ (str! "gcc") :: args)) args
                (phase1Step (splitChar ',' drop) link (decide ((str! "-c") ∉ (str! "gcc") :: args)) ⟨[], none, clang, false⟩ none
                  (str! "gcc")) none with h | h
              · rcases phase1Step_clang (splitChar ',' drop) link (decide ((str! "-c") ∉ (str! "gcc") :: args))
                  ⟨[], none, clang, false⟩ none (str! "gcc") with h' | h'
                · exact .inl (h.trans h')
                · exact .inr (h.trans h')
              · exact .inr h
          rcases hc with hc | hc
          · rw [hc] at hne; exact hw1 _ _ _ _ hne
          · rw [hc] at hne; exact hw2 _ _ _ _ hne
        by_cases h3 : (run (phase1 (splitChar ',' drop) clang link ((str! "gcc") :: args)).clang cargv cwd gcc.1).2 = 0
        · rw [if_neg (by simpa using h3)] at hr
          rw [hr]
          exact ⟨rfl, fun h => absurd h0 h, fun _ => rfl, hfiles⟩
        · rw [if_pos h3] at hr
          rw [hr]
          exact ⟨rfl, fun h => absurd h0 h, fun _ => rfl, hfiles⟩
  · rw [if_pos h0] at hr
    rw [hr]
    exact ⟨rfl, fun _ => ⟨rfl, rfl, rfl, rfl⟩, fun h => absurd h h0, fun _ _ _ _ _ p _ => rfl⟩

/-- A compilation meets the hypotheses and calls clang for the LLVM file. -/
example :
    let args := [str! "-c", str! "a.c", str! "-g", str! "-o", str! "a.o"]
    SeparateOutput (splitChar ',' (str! "-g")) args ∧ NoOutput (splitChar ',' (str! "-O1")) ∧
    (wrapper testEnv (fun _ _ _ f => (f, 0)) (str! "/w") args (fun _ => none)).calls =
      [(str! "gcc", (str! "gcc") :: args, 0),
        (str! "clang", [str! "clang", str! "-c", str! "a.c", str! "-o", str! "a.ll", str! "-O1", str! "-S", str! "-emit-llvm",
          str! "-g"], 0)] := by
  have no : ∀ l : List Str, (l.all (fun a => !startsWith a (str! "-o")) = true) → NoOutput l := by
    rintro l h a ha ⟨x, hx⟩
    have := List.all_eq_true.1 h a ha
    rw [startsWith_iff.2 ⟨x, hx⟩] at this
    cases this
  refine ⟨.inr ⟨[str! "-c", str! "a.c", str! "-g"], str! "a.o", [], rfl, no _ (by decide), no _ (by decide), ?_, by decide, by decide⟩,
    no _ (by decide), by decide⟩
  rintro ⟨x, hx⟩
  simp at hx

/-! ### C33 -/

/-- The LLVM step of the run was successful: the second program that was run. -/
def LlvmDone (r : WrapperRun) : Prop := ∃ g c, r.calls = [g, c] ∧ c.2.2 = 0

/-- The statement of C33, for the commands of a build: an LLVM file that was generated for the object file of a compile command
is read from the database, and all files read from there exist after a run of the wrapper that was successful. -/
def C33_statement : Prop :=
  ∀ (env : WrapperEnv) (clang append drop link : Str), EnvSet env clang append drop link → clang ≠ link →
  ∀ (run : Programs) (cmds : List (Str × List Str)) (files : Files), (∀ c ∈ cmds, c.1.head? = some '/') →
    let runs := buildRuns env run cmds files
    let read := readDb (runs.flatMap (fun x => x.2.2.added))
    (∀ x ∈ runs, ∀ base, CompilesTo (splitChar ',' drop) x.2.1 base ∨ CompilesDefault x.2.1 base → LlvmDone x.2.2 →
      (x.2.2.files (pathJoin x.1 (base ++ (str! ".ll")))).isSome = true → pathJoin x.1 (base ++ (str! ".ll")) ∈ read) ∧
    (∀ p ∈ read, ∃ x ∈ runs, LlvmDone x.2.2 ∧ (x.2.2.files p).isSome = true)

private def allFiles : Programs := fun _ _ _ _ => (fun _ => some 0, 0)

/-- The code does not satisfy C33: the default output of a compilation is not recorded. -/
theorem C33_fails : ¬ C33_statement := by
  intro h
  have := (h testEnv _ _ _ _ testEnv_set (by decide) allFiles [(str! "/w", [str! "-c", str! "a.c"])] (fun _ => none)
    (by decide)).1 _ List.mem_cons_self (str! "a") (.inr rfl) ⟨_, _, rfl, rfl⟩ rfl
  exact absurd this (by decide)

/-- A directory with a colon is not read back: instead of `/w:1/a.ll`, the file `/w` is read. -/
theorem C33_fails_colon :
    readDb ((buildRuns testEnv allFiles [(str! "/w:1", [str! "-c", str! "a.c", str! "-o", str! "a.o"])] (fun _ => none)).flatMap
      (fun x => x.2.2.added)) = [str! "/w"] := by decide

theorem pathJoin_abs {cwd x : Str} (h : cwd.head? = some '/') : (pathJoin cwd x).head? = some '/' := by
  unfold pathJoin
  split
  · assumption
  · cases cwd with
    | nil => cases h
    | cons c cwd =>
      split
      · simpa using h
      · simpa using h

theorem pathJoin_of_abs {cwd x : Str} (h : x.head? = some '/') : pathJoin cwd x = x := by
  unfold pathJoin
  rw [if_pos h]

theorem pathJoin_no {c : Char} {cwd x : Str} (hc : c ≠ '/') (h1 : c ∉ cwd) (h2 : c ∉ x) : c ∉ pathJoin cwd x := by
  unfold pathJoin
  split
  · exact h2
  · split
    · simp [h1, h2]
    · simp [h1, h2, hc]

theorem rsplitDot_no {c : Char} {x : Str} (h : c ∉ x) : c ∉ rsplitDot x := by
  rcases lastDot_cases x with h' | ⟨pre, suf, rfl, h'⟩
  · rw [rsplitDot, splitLastDot_none x h']; exact h
  · rw [rsplitDot_dot pre suf h']
    intro hc
    exact h (List.mem_append_left _ hc)

theorem outArg_no {c : Char} {linking : Bool} {prev : Option Str} {x : Str} (hc : c ∉ (str! ".llw")) (h : c ∉ x) :
    c ∉ outArg linking prev x := by
  have hr := rsplitDot_no h
  simp only [List.mem_cons, List.not_mem_nil, or_false, not_or] at hc
  unfold outArg
  split
  · split
    · simp [hr, hc]
    · split
      · simp [h, hc]
      · exact h
  · split
    · simp [hr, hc]
    · exact h

theorem outArgs_no {c : Char} {drop : List Str} {linking : Bool} (hc : c ∉ (str! ".llw")) {as : List Str} :
    ∀ prev, (∀ a ∈ as, c ∉ a) → ∀ x ∈ outArgs drop linking prev as, c ∉ x := by
  induction as with
  | nil => intro prev _ x hx; simp [outArgs] at hx
  | cons a as ih =>
    intro prev h x hx
    have ih := ih (some a) (fun y hy => h y (List.mem_cons_of_mem _ hy))
    rw [outArgs] at hx
    split at hx
    · exact ih x hx
    · rcases List.mem_cons.1 hx with rfl | hx
      · exact outArg_no hc (h a List.mem_cons_self)
      · exact ih x hx

private theorem loop_out_no {c : Char} {drop : List Str} {link : Str} {linking : Bool} (hc : c ∉ (str! ".llw")) {as : List Str} :
    ∀ (st : Phase1) prev, (∀ a ∈ as, c ∉ a) → (∀ o, st.out = some o → c ∉ o) →
      ∀ o, (phase1Loop drop link linking st prev as).out = some o → c ∉ o := by
  induction as with
  | nil => intro st prev _ h; exact h
  | cons a as ih =>
    intro st prev ha h
    rw [phase1Loop]
    refine ih _ _ (fun y hy => ha y (List.mem_cons_of_mem _ hy)) ?_
    intro o ho
    rw [phase1Step_out] at ho
    split at ho
    · cases ho; exact outArg_no hc (ha a List.mem_cons_self)
    · exact h o ho

theorem rstrip_ll {x : Str} (h : LlvmFile x) : rstrip x = x := by
  unfold rstrip
  rcases h with ⟨r, rfl | rfl⟩
  · simp [List.dropWhile_cons, show pySpace 'l' = false from by decide]
  · simp [List.dropWhile_cons, show pySpace 'w' = false from by decide]

theorem splitChar_oEntry {path : Str} (h : ':' ∉ path) : splitChar ':' ((str! "o:") ++ path) = [str! "o", path] := by
  have := splitChar_append ':' (str! "o") path (by decide)
  rw [splitChar_none _ _ h] at this
  exact this

/-- An entry is read back if its path has no colon. -/
theorem readDb_entry {path : Str} (h : ':' ∉ path) (hl : LlvmFile path) : readDb [(str! "o:") ++ path] = [path] := by
  have h1 : splitChar ':' ((str! "o:") ++ path) = [str! "o", path] := by
    exact splitChar_oEntry h
  unfold readDb
  rw [List.filter_cons, if_pos (startsWith_iff.2 ⟨path, rfl⟩)]
  rw [List.filter_nil, List.map_cons, List.map_nil, h1]
  exact congrArg (fun x => [x]) (rstrip_ll hl)

theorem readDb_other (path : Str) : readDb [(str! "f:") ++ path] = [] := by
  unfold readDb
  rw [List.filter_cons, if_neg]
  · rfl
  · rw [startsWith_iff]
    rintro ⟨r, hr⟩
    simp at hr

theorem readDb_append (a b : List Str) : readDb (a ++ b) = readDb a ++ readDb b := by
  unfold readDb; simp

theorem readDb_flatMap {α : Type} (l : List α) (f : α → List Str) : readDb (l.flatMap f) = l.flatMap (fun x => readDb (f x)) := by
  induction l with
  | nil => rfl
  | cons a l ih => rw [List.flatMap_cons, readDb_append, ih, List.flatMap_cons]

theorem mem_readDb {l : List Str} {p : Str} : p ∈ readDb l ↔ ∃ e ∈ l, p ∈ readDb [e] := by
  induction l with
  | nil => simp [readDb]
  | cons a l ih =>
    have : readDb (a :: l) = readDb [a] ++ readDb l := readDb_append [a] l
    rw [this, List.mem_append, ih]
    simp

/-- Entries written by the wrapper. -/
private theorem entry_form {drop : List Str} {clang link cwd : Str} {args : List Str} (hg : (str! "gcc") ∉ drop)
    (hk : wrapperSkips (phase1 drop clang link ((str! "gcc") :: args)) ((str! "gcc") :: args) = false)
    (hcw : ':' ∉ cwd) (hab : cwd.head? = some '/') (ha : ∀ a ∈ args, ':' ∉ a) {e : Str}
    (he : e ∈ dbEntries (phase1 drop clang link ((str! "gcc") :: args)) link (decide ((str! "-c") ∉ (str! "gcc") :: args)) cwd) :
    ∃ path, (e = (str! "o:") ++ path ∨ e = (str! "f:") ++ path) ∧ ':' ∉ path ∧ path.head? = some '/' ∧ LlvmFile path := by
  have hc : ':' ∉ (str! ".llw") := by decide
  unfold dbEntries at he
  cases ho : (phase1 drop clang link ((str! "gcc") :: args)).out with
  | some o =>
    rw [ho] at he
    simp only [List.mem_cons, List.not_mem_nil, or_false] at he
    have hraw : (phase1Raw drop clang link args).out = some o := by
      rw [phase1_eq] at ho
      split at ho <;> exact ho
    have hno : ':' ∉ o := by
      unfold phase1Raw at hraw
      refine loop_out_no hc _ _ ha ?_ o hraw
      intro o' ho'
      rw [phase1Step_out, if_neg (by simp)] at ho'
      cases ho'
    have hll : endsWith o (str! ".ll") = true ∨ endsWith o (str! ".llw") = true := by
      unfold wrapperSkips at hk
      rw [ho] at hk
      simp only [Bool.or_eq_false_iff] at hk
      obtain ⟨⟨hk, _⟩, _⟩ := hk
      by_contra hcon
      push Not at hcon
      simp [hcon.1, hcon.2] at hk
    refine ⟨pathJoin cwd o, ?_, pathJoin_no (by decide) hcw hno, pathJoin_abs hab, llvmFile_join hll cwd⟩
    split at he
    · exact .inl he
    · exact .inr he
  | none =>
    rw [ho] at he
    simp only at he
    split at he
    · simp at he
    · obtain ⟨a, ha', rfl⟩ := List.mem_map.1 he
      have hmem : a ∈ (phase1Raw drop clang link args).argv := by
        have := (List.mem_filter.1 ha').1
        rw [phase1_eq] at this
        split at this
        · exact (List.mem_filter.1 this).1
        · exact this
      have hno : ':' ∉ a := by
        rw [raw_argv clang link args hg] at hmem
        rcases List.mem_cons.1 hmem with rfl | hmem
        · decide
        · exact outArgs_no hc _ ha a hmem
      refine ⟨_, .inl rfl, pathJoin_no (by decide) hcw ?_, pathJoin_abs hab, llvmFile_join (.inl (endsWith_iff.2 ⟨_, rfl⟩)) cwd⟩
      have := rsplitDot_no hno
      simp [this]

/-- What a run of the wrapper adds to the database. -/
private theorem wrapper_added {env : WrapperEnv} {clang append drop link : Str} (he : EnvSet env clang append drop link)
    (run : Programs) (cwd : Str) (args : List Str) (files : Files) (e : Str) (h : e ∈ (wrapper env run cwd args files).added) :
    LlvmDone (wrapper env run cwd args files) ∧
    wrapperSkips (phase1 (splitChar ',' drop) clang link ((str! "gcc") :: args)) ((str! "gcc") :: args) = false ∧
    e ∈ dbEntries (phase1 (splitChar ',' drop) clang link ((str! "gcc") :: args)) link (decide ((str! "-c") ∉ (str! "gcc") :: args)) cwd ∧
    ((wrapper env run cwd args files).files (pathJoin cwd (((splitChar ':' e)[1]?).getD []))).isSome = true := by
  obtain ⟨db, hdb⟩ := Option.ne_none_iff_exists'.1 he.db
  generalize hr : wrapper env run cwd args files = r at *
  unfold wrapper at hr
  rw [hdb, he.clang, he.append, he.drop, he.link] at hr
  simp only at hr
  split at hr
  · rw [← hr] at h; simp at h
  · split at hr
    · rw [← hr] at h; simp at h
    · next hk =>
      split at hr
      · rw [← hr] at h; simp at h
      · split at hr
        · rw [← hr] at h; simp at h
        · next h3 =>
          rw [← hr] at h ⊢
          obtain ⟨h4, h5⟩ := List.mem_filter.1 h
          exact ⟨⟨_, _, rfl, by simpa using h3⟩, by simpa using hk, h4, h5⟩

/-- A successful run adds its existing entries. -/
private theorem wrapper_adds {env : WrapperEnv} {clang append drop link : Str} (he : EnvSet env clang append drop link)
    (run : Programs) (cwd : Str) (args : List Str) (files : Files) (hd : LlvmDone (wrapper env run cwd args files)) (e : Str)
    (h : e ∈ dbEntries (phase1 (splitChar ',' drop) clang link ((str! "gcc") :: args)) link
      (decide ((str! "-c") ∉ (str! "gcc") :: args)) cwd)
    (hf : ((wrapper env run cwd args files).files (pathJoin cwd (((splitChar ':' e)[1]?).getD []))).isSome = true) :
    e ∈ (wrapper env run cwd args files).added := by
  obtain ⟨db, hdb⟩ := Option.ne_none_iff_exists'.1 he.db
  generalize hr : wrapper env run cwd args files = r at *
  unfold wrapper at hr
  rw [hdb, he.clang, he.append, he.drop, he.link] at hr
  simp only at hr
  obtain ⟨g, c, hc, hz⟩ := hd
  split at hr
  · rw [← hr] at hc; simp at hc
  · split at hr
    · rw [← hr] at hc; simp at hc
    · split at hr
      · rw [← hr] at hc; simp at hc
      · split at hr
        · next h3 =>
          rw [← hr] at hc
          simp only [List.cons_append, List.nil_append, List.cons.injEq, and_true] at hc
          rw [← hc.2] at hz
          exact absurd hz h3
        · rw [← hr] at hf ⊢
          exact List.mem_filter.2 ⟨h, hf⟩

theorem mem_buildRuns {env : WrapperEnv} {run : Programs} : ∀ {cmds : List (Str × List Str)} {files : Files} {x : Str × List Str × WrapperRun},
    x ∈ buildRuns env run cmds files → (x.1, x.2.1) ∈ cmds ∧ ∃ f, x.2.2 = wrapper env run x.1 x.2.1 f := by
  intro cmds
  induction cmds with
  | nil => intro files x hx; simp [buildRuns] at hx
  | cons c cmds ih =>
    intro files x hx
    obtain ⟨cwd, args⟩ := c
    rw [buildRuns] at hx
    rcases List.mem_cons.1 hx with rfl | hx
    · exact ⟨List.mem_cons_self, files, rfl⟩
    · obtain ⟨h1, h2⟩ := ih hx
      exact ⟨List.mem_cons_of_mem _ h1, h2⟩

private theorem isObject_o (base : Str) : isObject (base ++ str! ".o") = true := by
  unfold isObject
  rw [endsWith_iff.2 ⟨base, rfl⟩]; rfl

/-- The entry for a compile command. -/
private theorem compile_entry {drop : List Str} {clang link cwd : Str} {args : List Str} {base : Str} (hcl : clang ≠ link)
    (h : CompilesTo drop args base) :
    dbEntries (phase1 drop clang link ((str! "gcc") :: args)) link (decide ((str! "-c") ∉ (str! "gcc") :: args)) cwd =
      [(str! "o:") ++ pathJoin cwd (base ++ str! ".ll")] := by
  obtain ⟨hc, a, b, rfl, ha, hb, hn, hd, ho⟩ := h
  have hlf : decide ((str! "-c") ∉ (str! "gcc") :: (a ++ dashO :: (base ++ (str! ".o")) :: b)) = false :=
    decide_eq_false (fun h => h (List.mem_cons_of_mem _ hc))
  have hno : ¬ ∃ x, base ++ (str! ".o") = dashO ++ x := by
    rintro ⟨x, hx⟩
    match base, hn, hx with
    | [], _, hx => simp at hx
    | [c], _, hx => simp at hx
    | c :: d :: q, hn, hx =>
      simp only [List.cons_append, List.nil_append, List.cons.injEq] at hx
      obtain ⟨rfl, rfl, _⟩ := hx
      exact hn ⟨q, rfl⟩
  have hout := raw_out clang link a b (base ++ (str! ".o")) ha hb ho hno
  rw [hlf] at hout
  have hcs : (phase1Raw drop clang link (a ++ dashO :: (base ++ (str! ".o")) :: b)).clang = clang ∧
      (phase1Raw drop clang link (a ++ dashO :: (base ++ (str! ".o")) :: b)).sources = false := by
    unfold phase1Raw
    rw [hlf]
    obtain ⟨h1, h2⟩ := phase1Loop_compile drop link (a ++ dashO :: (base ++ (str! ".o")) :: b)
      (phase1Step drop link false ⟨[], none, clang, false⟩ none (str! "gcc")) none
    obtain ⟨h3, h4⟩ := phase1Step_compile drop link ⟨[], none, clang, false⟩ none (str! "gcc")
    exact ⟨h1.trans h3, h2.trans h4⟩
  have e : outArg false (some dashO) (base ++ (str! ".o")) = base ++ (str! ".ll") := by
    unfold outArg
    rw [if_pos rfl, if_pos ⟨isObject_o base, rfl⟩]
    rw [show base ++ (str! ".o") = base ++ '.' :: ['o'] from rfl, rsplitDot_dot _ _ (by decide)]
  rw [e] at hout
  rw [phase1_eq, if_neg (by rw [hcs.2]; simp)]
  unfold dbEntries
  rw [hout]
  simp only
  rw [hcs.1, if_pos hcl]

/-- **C33 (partial)** For every sequence of runs of the wrapper in directories without colons: if an LLVM file was generated for
the object file given by `-o` in a compile command, its path is read from the database; and every path that is read exists after
a successful run of the LLVM tool. Missing: default outputs (`C33_fails`) and paths with colons (`C33_fails_colon`). -/
theorem C33_database_partial (env : WrapperEnv) (clang append drop link : Str) (he : EnvSet env clang append drop link)
    (hcl : clang ≠ link) (hg : (str! "gcc") ∉ splitChar ',' drop) (run : Programs) (cmds : List (Str × List Str)) (files : Files)
    (habs : ∀ c ∈ cmds, c.1.head? = some '/') (hcolon : ∀ c ∈ cmds, ':' ∉ c.1 ∧ ∀ a ∈ c.2, ':' ∉ a) :
    let runs := buildRuns env run cmds files
    let read := readDb (runs.flatMap (fun x => x.2.2.added))
    (∀ x ∈ runs, ∀ base, CompilesTo (splitChar ',' drop) x.2.1 base → LlvmDone x.2.2 →
      (x.2.2.files (pathJoin x.1 (base ++ (str! ".ll")))).isSome = true → pathJoin x.1 (base ++ (str! ".ll")) ∈ read) ∧
    (∀ p ∈ read, ∃ x ∈ runs, LlvmDone x.2.2 ∧ (x.2.2.files p).isSome = true) := by
  intro runs read
  refine ⟨fun x hx base hb hd hf => ?_, fun p hp => ?_⟩
  · obtain ⟨hm, f, hr⟩ := mem_buildRuns hx
    have hco := hcolon _ hm
    have hab := habs _ hm
    have hent := compile_entry (clang := clang) (link := link) (cwd := x.1) hcl hb
    have hbase : ':' ∉ base ++ (str! ".ll") := by
      obtain ⟨_, a, b, hargs, _⟩ := hb
      have := hco.2 (base ++ (str! ".o")) (by show _ ∈ x.2.1; rw [hargs]; simp)
      simp only [List.mem_append, not_or] at this
      simp [this.1]
    have hpath : ':' ∉ pathJoin x.1 (base ++ (str! ".ll")) := pathJoin_no (by decide) hco.1 hbase
    have hll : LlvmFile (pathJoin x.1 (base ++ (str! ".ll"))) := llvmFile_join (.inl (endsWith_iff.2 ⟨_, rfl⟩)) _
    have hadd : ((str! "o:") ++ pathJoin x.1 (base ++ (str! ".ll"))) ∈ x.2.2.added := by
      rw [hr] at hd hf ⊢
      refine wrapper_adds he run x.1 x.2.1 f hd _ (by rw [hent]; simp) ?_
      have h1 : splitChar ':' ((str! "o:") ++ pathJoin x.1 (base ++ (str! ".ll"))) = [str! "o", pathJoin x.1 (base ++ (str! ".ll"))] := by
        exact splitChar_oEntry hpath
      rw [h1]
      show (_ : Option Nat).isSome = true
      rw [show (([str! "o", pathJoin x.1 (base ++ (str! ".ll"))] : List Str)[1]?).getD [] = pathJoin x.1 (base ++ (str! ".ll")) from rfl,
        pathJoin_of_abs (pathJoin_abs hab)]
      exact hf
    refine mem_readDb.2 ⟨_, List.mem_flatMap.2 ⟨x, hx, hadd⟩, ?_⟩
    rw [readDb_entry hpath hll]; simp
  · obtain ⟨e, hem, hpe⟩ := mem_readDb.1 hp
    obtain ⟨x, hx, hadd⟩ := List.mem_flatMap.1 hem
    obtain ⟨hm, f, hr⟩ := mem_buildRuns hx
    have hco := hcolon _ hm
    have hab := habs _ hm
    rw [hr] at hadd
    obtain ⟨h1, h2, h3, h4⟩ := wrapper_added he run x.1 x.2.1 f e hadd
    obtain ⟨path, hform, hno, hpa, hll⟩ := entry_form hg h2 hco.1 hab hco.2 h3
    rcases hform with rfl | rfl
    · rw [readDb_entry hno hll] at hpe
      simp only [List.mem_cons, List.not_mem_nil, or_false] at hpe
      subst hpe
      refine ⟨x, hx, by rw [hr]; exact h1, ?_⟩
      have hs : splitChar ':' ((str! "o:") ++ p) = [str! "o", p] := by
        exact splitChar_oEntry hno
      rw [hs, show (([str! "o", p] : List Str)[1]?).getD [] = p from rfl, pathJoin_of_abs hpa] at h4
      rw [hr]; exact h4
    · rw [readDb_other] at hpe; simp at hpe

/-- Two compile commands and their LLVM files. -/
example : readDb ((buildRuns testEnv allFiles
      [(str! "/w", [str! "-c", str! "a.c", str! "-o", str! "a.o"]), (str! "/w/d", [str! "-o", str! "/x/b.o", str! "-c", str! "b.c"]),
        (str! "/w", [str! "a.o", str! "/x/b.o", str! "-o", str! "prog"])] (fun _ => none)).flatMap
      (fun x => x.2.2.added)) = [str! "/w/a.ll", str! "/x/b.ll"] := by decide

/-- The hypotheses hold for such a command. -/
example : CompilesTo (splitChar ',' (str! "-g")) [str! "-c", str! "a.c", str! "-o", str! "a.o"] (str! "a") ∧
    LlvmDone (wrapper testEnv allFiles (str! "/w") [str! "-c", str! "a.c", str! "-o", str! "a.o"] (fun _ => none)) := by
  refine ⟨⟨by decide, [str! "-c", str! "a.c"], [], rfl, ?_, ?_, ?_, by decide, by decide⟩, ⟨_, _, rfl, rfl⟩⟩
  · rintro a ha ⟨x, rfl⟩
    simp at ha
  · intro a ha; simp at ha
  · rintro ⟨x, hx⟩; simp at hx

end DK
