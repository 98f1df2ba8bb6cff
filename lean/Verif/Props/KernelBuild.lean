import Verif.Spec.KernelBuild
import Verif.Props.Building

/-! Properties of repeated builds of kernel sources: C134, C135, C136. -/

set_option autoImplicit false

namespace DK
open Spec

theorem llOf_inj {s s' : Str} (h : llOf (s ++ str! ".c") = llOf (s' ++ str! ".c")) : s = s' := by
  unfold llOf at h
  simp only [List.length_append, List.length_cons, List.length_nil, Nat.add_sub_cancel, List.take_left'] at h
  exact List.append_cancel_right h

theorem setLl_src (fs : KFiles) (f : Str) (x : LlFile) (t : Nat) : (fs.setLl f x t).src = fs.src := rfl

theorem setLl_hdr (fs : KFiles) (f : Str) (x : LlFile) (t : Nat) : (fs.setLl f x t).hdr = fs.hdr := rfl

theorem setLl_get (fs : KFiles) (f g : Str) (x : LlFile) (t : Nat) :
    (fs.setLl f x t).ll g = if g = f then some (x, t) else fs.ll g := rfl

/-! ### C134 -/

/-- What a call of the build of a source does. -/
private def sourceStep (P : Bool → Bool → Prop) (t : Nat) (fs fs' : KFiles) : Prop :=
  ∃ s a b r, P a b ∧ buildSource t (s ++ str! ".c") a b fs = (fs', r)

/-- The statement of C134: when the build of a source returns, the LLVM file is that of the current source and headers,
whatever happened before. -/
def C134_statement : Prop :=
  ∀ (t : Nat) (fs : KFiles), BuildHistory True (fun t fs fs' => ∃ s a b r, buildSource t (s ++ str! ".c") a b fs = (fs', r)) t fs →
    ∀ (t' : Nat) (s : Str) (a b : Bool) (fs' : KFiles), t < t' → buildSource t' (s ++ str! ".c") a b fs = (fs', true) →
      CurrentSource fs' (s ++ str! ".c")

/-- One source that was not compiled yet. -/
private def oneSource : KFiles := ⟨fun s => if s = str! "a.c" then some (1, 0) else none, fun _ => none, 1⟩

private theorem oneSource_start (H : Prop) (step : Nat → KFiles → KFiles → Prop) : BuildHistory H step 0 oneSource :=
  .start 0 _ (fun _ => rfl) (by
    intro s c st h
    simp only [oneSource] at h
    split at h
    · cases h; exact Nat.le_refl 0
    · cases h)

/-- The code does not satisfy C134: changes of headers are not noticed. -/
theorem C134_fails : ¬ C134_statement := by
  intro h
  have h1 := BuildHistory.build 0 1 oneSource _ (oneSource_start True (fun t fs fs' => ∃ s a b r, buildSource t (s ++ str! ".c") a b fs = (fs', r)))
    (by decide) ⟨str! "a", true, true, true, rfl⟩
  have h2 := BuildHistory.header 1 2 _ 7 trivial h1 (by decide)
  obtain ⟨c, st, tm, e1, e2⟩ := h 2 _ h2 3 (str! "a") true true _ (by decide) rfl
  cases e1
  cases e2

/-- When the optimisation fails after the compilation, the next build returns the file that was not optimised. -/
theorem C134_fails_opt : ∃ fs, BuildHistory False (sourceStep (fun _ _ => True)) 1 fs ∧
    ∃ fs', buildSource 2 (str! "a.c") true true fs = (fs', true) ∧ ¬ CurrentSource fs' (str! "a.c") := by
  refine ⟨_, .build 0 1 oneSource _ (oneSource_start _ _) (by decide) ⟨str! "a", true, false, false, trivial, rfl⟩, _, rfl, ?_⟩
  rintro ⟨c, st, tm, e1, e2⟩
  cases e2

/-- A change of the source at the same time as the build is not noticed. -/
theorem C134_fails_tick : ∃ fs fs', buildSource 1 (str! "a.c") true true oneSource = (fs, true) ∧
    buildSource 2 (str! "a.c") true true (fs.edit (str! "a.c") 2 1) = (fs', true) ∧ ¬ CurrentSource fs' (str! "a.c") := by
  refine ⟨_, _, rfl, rfl, ?_⟩
  rintro ⟨c, st, tm, e1, e2⟩
  cases e1
  cases e2

/-- The invariant: a file that is not older than its source is current. -/
private def SourceInv (bad : Prop) (t : Nat) (fs : KFiles) : Prop :=
  (∀ s c st, fs.src s = some (c, st) → st ≤ t) ∧
  ∀ s x tm, fs.ll (llOf (s ++ str! ".c")) = some (x, tm) → tm ≤ t ∧
    ∀ c st, fs.src (s ++ str! ".c") = some (c, st) → st ≤ tm →
      x = .opted (.compiled c fs.hdr) ∨ (bad ∧ x = .compiled c fs.hdr)

private theorem inv_build {bad : Prop} {P : Bool → Bool → Prop} (hP : ∀ a b, P a b → a = true → b = false → bad) {t t' : Nat}
    {fs fs' : KFiles} {s : Str} {a b r : Bool} (hi : SourceInv bad t fs) (ht : t < t') (hp : P a b)
    (h : buildSource t' (s ++ str! ".c") a b fs = (fs', r)) :
    SourceInv bad t' fs' ∧ fs'.src = fs.src ∧ fs'.hdr = fs.hdr ∧ (r = true → ∃ c st tm x, fs'.src (s ++ str! ".c") = some (c, st) ∧
      fs'.ll (llOf (s ++ str! ".c")) = some (x, tm) ∧ st ≤ tm) := by
  have mono : SourceInv bad t' fs := ⟨fun s c st h => Nat.le_of_lt (Nat.lt_of_le_of_lt (hi.1 s c st h) ht),
    fun s x tm h => ⟨Nat.le_of_lt (Nat.lt_of_le_of_lt (hi.2 s x tm h).1 ht), (hi.2 s x tm h).2⟩⟩
  have write : ∀ c st x, fs.src (s ++ str! ".c") = some (c, st) → (x = .opted (.compiled c fs.hdr) ∨ (bad ∧ x = .compiled c fs.hdr)) →
      ∀ gs : KFiles, gs.src = fs.src → gs.hdr = fs.hdr → gs.ll = (fs.setLl (llOf (s ++ str! ".c")) x t').ll → SourceInv bad t' gs := by
    intro c st x hs hx gs h1 h2 h3
    refine ⟨by rw [h1]; exact mono.1, ?_⟩
    intro s' y tm hy
    rw [h3, setLl_get] at hy
    rw [h1, h2]
    split at hy
    · next he =>
      cases hy
      refine ⟨Nat.le_refl _, fun c' st' hc' _ => ?_⟩
      have := llOf_inj he
      subst this
      rw [hs] at hc'
      cases hc'
      exact hx
    · exact mono.2 s' y tm hy
  unfold buildSource at h
  split at h
  · cases h; exact ⟨mono, rfl, rfl, fun h => by cases h⟩
  · next c st hs =>
    split at h
    · split at h
      · split at h
        · cases h
          refine ⟨write c st _ hs (.inl rfl) _ rfl rfl ?_, rfl, rfl, fun _ => ⟨c, st, t', .opted (.compiled c fs.hdr), hs, ?_, ?_⟩⟩
          · funext g
            simp only [setLl_get]
            split <;> rfl
          · rw [setLl_get, if_pos rfl]
          · exact mono.1 _ c st hs
        · next ha hb =>
          cases h
          exact ⟨write c st _ hs (.inr ⟨hP a b hp ha (by simpa using hb), rfl⟩) _ rfl rfl rfl, rfl, rfl, fun h => by cases h⟩
      · cases h; exact ⟨mono, rfl, rfl, fun h => by cases h⟩
    · next ho =>
      cases h
      refine ⟨mono, rfl, rfl, fun _ => ?_⟩
      cases hl : fs.ll (llOf (s ++ str! ".c")) with
      | none => rw [hl] at ho; exact absurd rfl ho
      | some p =>
        obtain ⟨x, tm⟩ := p
        rw [hl] at ho
        exact ⟨c, st, tm, x, hs, rfl, by simpa [outdated] using ho⟩

private theorem inv_history {bad : Prop} {P : Bool → Bool → Prop} (hP : ∀ a b, P a b → a = true → b = false → bad) {t : Nat}
    {fs : KFiles} (h : BuildHistory False (sourceStep P) t fs) : SourceInv bad t fs := by
  induction h with
  | start t fs h1 h2 => exact ⟨h2, fun s x tm h => by rw [h1] at h; cases h⟩
  | edit t t' fs s c _ ht ih =>
    refine ⟨?_, ?_⟩
    · intro s' c' st h
      simp only [KFiles.edit] at h
      split at h
      · cases h; exact Nat.le_refl _
      · exact Nat.le_of_lt (Nat.lt_of_le_of_lt (ih.1 _ _ _ h) ht)
    · intro s' x tm h
      have h' : fs.ll (llOf (s' ++ str! ".c")) = some (x, tm) := h
      obtain ⟨a, b⟩ := ih.2 s' x tm h'
      refine ⟨by omega, ?_⟩
      intro c' st hs hst
      simp only [KFiles.edit] at hs
      split at hs
      · cases hs; omega
      · exact b c' st hs hst
  | header _ _ _ _ h => exact h.elim
  | build t t' fs fs' _ ht hs ih =>
    obtain ⟨s, a, b, r, hp, h⟩ := hs
    exact (inv_build hP ih ht hp h).1

/-- **C134 (partial)** If headers do not change, times of changes and builds differ, and the optimisation does not fail, then
whenever the build of a source returns, the LLVM file is that of the current source. If the optimisation may fail, the file
is still compiled from the current source. Missing: the other histories (`C134_fails`, `C134_fails_opt`,
`C134_fails_tick`). -/
theorem C134_current_partial :
    (∀ (t : Nat) (fs : KFiles),
      BuildHistory False (fun t fs fs' => ∃ s a b r, (a = true → b = true) ∧ buildSource t (s ++ str! ".c") a b fs = (fs', r)) t fs →
      ∀ (t' : Nat) (s : Str) (a b : Bool) (fs' : KFiles), t < t' → buildSource t' (s ++ str! ".c") a b fs = (fs', true) →
        CurrentSource fs' (s ++ str! ".c")) ∧
    (∀ (t : Nat) (fs : KFiles),
      BuildHistory False (fun t fs fs' => ∃ s a b r, buildSource t (s ++ str! ".c") a b fs = (fs', r)) t fs →
      ∀ (t' : Nat) (s : Str) (a b : Bool) (fs' : KFiles), t < t' → buildSource t' (s ++ str! ".c") a b fs = (fs', true) →
        ∃ c st x tm, fs'.src (s ++ str! ".c") = some (c, st) ∧ fs'.ll (llOf (s ++ str! ".c")) = some (x, tm) ∧
          (x = .compiled c fs'.hdr ∨ x = .opted (.compiled c fs'.hdr))) := by
  constructor
  · intro t fs h t' s a b fs' ht hb
    have hinv := inv_history (bad := False) (P := fun a b => a = true → b = true)
      (fun a b hp ha hb => by rw [hp ha] at hb; cases hb) h
    by_cases hp : a = true → b = true
    · obtain ⟨i1, i2, i3, i4⟩ := inv_build (bad := False) (P := fun a b => a = true → b = true)
        (fun a b hp ha hb => by rw [hp ha] at hb; cases hb) hinv ht hp hb
      obtain ⟨c, st, tm, x, e1, e2, e3⟩ := i4 rfl
      rcases (i1.2 s x tm e2).2 c st e1 e3 with rfl | ⟨h, _⟩
      · exact ⟨c, st, tm, e1, e2⟩
      · exact h.elim
    · -- the optimisation fails: the method returns only if nothing was compiled
      have ha : a = true := by cases a <;> simp_all
      have hbf : b = false := by cases b <;> simp_all
      have : buildSource t' (s ++ str! ".c") a true fs = (fs', true) := by
        unfold buildSource at hb ⊢
        cases hs : fs.src (s ++ str! ".c") with
        | none => rw [hs] at hb; cases hb
        | some p =>
          obtain ⟨c, st⟩ := p
          rw [hs] at hb
          simp only [ha, hbf] at hb ⊢
          by_cases ho : outdated (fs.ll (llOf (s ++ str! ".c"))) st = true
          · rw [if_pos ho] at hb; simp at hb
          · rw [if_neg ho] at hb ⊢; exact hb
      obtain ⟨i1, i2, i3, i4⟩ := inv_build (bad := False) (P := fun a b => a = true → b = true)
        (fun a b hp ha hb => by rw [hp ha] at hb; cases hb) hinv ht (fun _ => rfl) this
      obtain ⟨c, st, tm, x, e1, e2, e3⟩ := i4 rfl
      rcases (i1.2 s x tm e2).2 c st e1 e3 with rfl | ⟨h, _⟩
      · exact ⟨c, st, tm, e1, e2⟩
      · exact h.elim
  · intro t fs h t' s a b fs' ht hb
    have h' : BuildHistory False (sourceStep (fun _ _ => True)) t fs := by
      clear hb ht
      induction h with
      | start t fs h1 h2 => exact .start t fs h1 h2
      | edit t t' fs s c _ ht ih => exact .edit t t' fs s c ih ht
      | header _ _ _ _ h => exact h.elim
      | build t t' fs fs' _ ht hs ih =>
        obtain ⟨s, a, b, r, h⟩ := hs
        exact .build t t' fs fs' ih ht ⟨s, a, b, r, trivial, h⟩
    have hinv := inv_history (bad := True) (fun _ _ _ _ _ => trivial) h'
    obtain ⟨i1, i2, i3, i4⟩ := inv_build (bad := True) (P := fun _ _ => True) (fun _ _ _ _ _ => trivial) hinv ht trivial hb
    obtain ⟨c, st, tm, x, e1, e2, e3⟩ := i4 rfl
    refine ⟨c, st, x, tm, e1, e2, ?_⟩
    rcases (i1.2 s x tm e2).2 c st e1 e3 with rfl | ⟨_, h⟩
    · exact .inr rfl
    · exact .inl h

example : ∃ fs, BuildHistory False
    (fun t fs fs' => ∃ s a b r, (a = true → b = true) ∧ buildSource t (s ++ str! ".c") a b fs = (fs', r)) 2 fs ∧
    ∃ fs', buildSource 3 (str! "a" ++ str! ".c") true true fs = (fs', true) :=
  ⟨_, .edit 1 2 _ (str! "a.c") 5 (.build 0 1 oneSource _ (oneSource_start _ _) (by decide)
    ⟨str! "a", true, true, true, fun _ => rfl, rfl⟩) (by decide), _, rfl⟩

/-! ### C135 -/

/-- The statement of C135: when the build of a module returns, the file of the module is that of the current sources. -/
def C135_statement : Prop :=
  ∀ (srcs : List (Str × Str)) (out : Str), (srcs.map Prod.snd).Nodup → out ∉ srcs.map Prod.snd →
    ∀ (t : Nat) (fs : KFiles),
      BuildHistory False (fun t fs fs' => ∃ os r, buildModule t (moduleCommands srcs out) out os fs = (fs', r)) t fs →
      ∀ (t' : Nat) (os : List Bool) (fs' : KFiles), t < t' →
        buildModule t' (moduleCommands srcs out) out os fs = (fs', true) → CurrentModule fs' srcs out

private theorem iter_linked (n : Nat) (xs ys : List LlFile) (m : Nat)
    (h : (LlFile.opted)^[n] (.linked xs) = (LlFile.opted)^[m] (.linked ys)) : xs = ys := by
  induction n generalizing m with
  | zero =>
    cases m with
    | zero => simpa using h
    | succ m => rw [Function.iterate_succ_apply'] at h; cases h
  | succ n ih =>
    cases m with
    | zero => rw [Function.iterate_succ_apply'] at h; cases h
    | succ m =>
      rw [Function.iterate_succ_apply', Function.iterate_succ_apply'] at h
      exact ih m (LlFile.opted.inj h)

/-- The code does not satisfy C135: when the tool is interrupted between compiling and linking, the next build keeps the file
that was linked before. -/
theorem C135_fails : ¬ C135_statement := by
  intro h
  have h1 := BuildHistory.build 0 1 oneSource _ (oneSource_start False
    (fun t fs fs' => ∃ os r, buildModule t (moduleCommands [(str! "a.c", str! "a.ll")] (str! "m.ll")) (str! "m.ll") os fs = (fs', r)))
    (by decide) ⟨[true, true, true], true, rfl⟩
  have h2 := BuildHistory.edit 1 2 _ (str! "a.c") 2 h1 (by decide)
  have h3 := BuildHistory.build 2 3 _ _ h2 (by decide) ⟨[true], false, rfl⟩
  obtain ⟨xs, n, tm, e1, e2⟩ := h [(str! "a.c", str! "a.ll")] (str! "m.ll") (by decide) (by decide) 3 _ h3 4 [true] _ (by decide) rfl
  have e3 : LlFile.opted (.opted (.linked [.compiled 1 1])) = (LlFile.opted)^[n + 1] (.linked xs) := by
    have := congrArg (Option.map Prod.fst) e1
    exact Option.some.inj this
  have := iter_linked 2 _ _ (n + 1) e3
  subst this
  cases e2 with
  | cons hx _ =>
    obtain ⟨c, st, hc, hx⟩ := hx
    cases hc
    cases hx

/-- Sources and objects of a module between builds. -/
private def ModInv (srcs : List (Str × Str)) (t : Nat) (fs : KFiles) : Prop :=
  (∀ s c st, fs.src s = some (c, st) → st ≤ t) ∧
  ∀ p ∈ srcs, ∀ x tm, fs.ll p.2 = some (x, tm) → tm ≤ t ∧
    ∀ c st, fs.src p.1 = some (c, st) → st ≤ tm → x = .compiled c fs.hdr

private theorem modInv_mono {srcs : List (Str × Str)} {t t' : Nat} {fs : KFiles} (h : ModInv srcs t fs) (ht : t ≤ t') :
    ModInv srcs t' fs :=
  ⟨fun s c st hs => Nat.le_trans (h.1 s c st hs) ht, fun p hp x tm hx => ⟨Nat.le_trans (h.2 p hp x tm hx).1 ht, (h.2 p hp x tm hx).2⟩⟩

private theorem modInv_out {srcs : List (Str × Str)} {out : Str} (ho : out ∉ srcs.map Prod.snd) {t : Nat} {fs : KFiles}
    (h : ModInv srcs t fs) (x : LlFile) (t' : Nat) : ModInv srcs t (fs.setLl out x t') := by
  refine ⟨h.1, fun p hp y tm hy => ?_⟩
  have hne : p.2 ≠ out := fun he => ho (he ▸ List.mem_map_of_mem hp)
  rw [setLl_get, if_neg hne] at hy
  exact h.2 p hp y tm hy

private theorem modInv_obj {srcs : List (Str × Str)} (hn : (srcs.map Prod.snd).Nodup) {t : Nat} {fs : KFiles} (h : ModInv srcs t fs)
    {p : Str × Str} (hp : p ∈ srcs) {c st : Nat} (hs : fs.src p.1 = some (c, st)) :
    ModInv srcs t (fs.setLl p.2 (.compiled c fs.hdr) t) := by
  refine ⟨h.1, fun q hq y tm hy => ?_⟩
  rw [setLl_get] at hy
  split at hy
  · next he =>
    cases hy
    have : q = p := List.inj_on_of_nodup_map hn hq hp he
    subst this
    refine ⟨Nat.le_refl _, fun c' st' hc' _ => ?_⟩
    have hc'' : fs.src q.1 = some (c', st') := hc'
    rw [hs] at hc''
    cases hc''
    rfl
  · exact h.2 q hq y tm hy

private theorem loop_clang {t : Nat} {s o : Str} {cs : List LlCmd} {fs fs' : KFiles} {b : Bool} {os : List Bool}
    {r : Option (List Bool)} (h : modLoop t (.clang s o :: cs) fs b os = (fs', r)) :
    (fs' = fs ∧ r = none) ∨ ∃ c st, fs.src s = some (c, st) ∧
      ((∃ os', modLoop t cs (fs.setLl o (.compiled c fs.hdr) t) true os' = (fs', r)) ∨
       (outdated (fs.ll o) st = false ∧ modLoop t cs fs b os = (fs', r))) := by
  rw [modLoop] at h
  cases hs : fs.src s with
  | none => rw [hs] at h; cases h; exact .inl ⟨rfl, rfl⟩
  | some p =>
    obtain ⟨c, st⟩ := p
    rw [hs] at h
    dsimp only at h
    cases ho : outdated (fs.ll o) st with
    | false =>
      rw [ho] at h
      exact .inr ⟨c, st, rfl, .inr ⟨ho, by simpa using h⟩⟩
    | true =>
      rw [ho, if_pos rfl] at h
      match os, h with
      | [], h => cases h; exact .inl ⟨rfl, rfl⟩
      | false :: _, h => cases h; exact .inl ⟨rfl, rfl⟩
      | true :: os', h => exact .inr ⟨c, st, rfl, .inl ⟨os', h⟩⟩

private theorem loop_link {t : Nat} {is : List Str} {o : Str} {cs : List LlCmd} {fs fs' : KFiles} {b : Bool} {os : List Bool}
    {r : Option (List Bool)} (h : modLoop t (.link is o :: cs) fs b os = (fs', r)) :
    (fs' = fs ∧ r = none) ∨
      (∃ xs os', fs.readAll is = some xs ∧ modLoop t cs (fs.setLl o (.linked xs) t) b os' = (fs', r)) ∨
      (b = false ∧ (∃ y, fs.ll o = some y) ∧ modLoop t cs fs b os = (fs', r)) := by
  rw [modLoop.eq_def] at h
  dsimp only at h
  cases hc : (fs.ll o).isNone || b with
  | false =>
    rw [hc] at h
    rw [Bool.or_eq_false_iff] at hc
    refine .inr (.inr ⟨hc.2, ?_, by simpa using h⟩)
    cases hy : fs.ll o with
    | none => rw [hy] at hc; simp at hc
    | some y => exact ⟨y, rfl⟩
  | true =>
    rw [hc, if_pos rfl] at h
    cases hr : fs.readAll is with
    | none =>
      rw [hr] at h
      match os, h with
      | [], h => cases h; exact .inl ⟨rfl, rfl⟩
      | false :: _, h => cases h; exact .inl ⟨rfl, rfl⟩
      | true :: _, h => cases h; exact .inl ⟨rfl, rfl⟩
    | some xs =>
      rw [hr] at h
      match os, h with
      | [], h => cases h; exact .inl ⟨rfl, rfl⟩
      | false :: _, h => cases h; exact .inl ⟨rfl, rfl⟩
      | true :: os', h => exact .inr (.inl ⟨xs, os', rfl, h⟩)

private theorem loop_inv {srcs : List (Str × Str)} {out : Str} (hn : (srcs.map Prod.snd).Nodup) (ho : out ∉ srcs.map Prod.snd)
    {t : Nat} {cs : List LlCmd} (hc : ∀ c ∈ cs, (∃ p ∈ srcs, c = .clang p.1 p.2) ∨ ∃ is, c = .link is out) {fs fs' : KFiles} {b : Bool}
    {os : List Bool} {r : Option (List Bool)} (h : ModInv srcs t fs) (hl : modLoop t cs fs b os = (fs', r)) :
    ModInv srcs t fs' ∧ fs'.src = fs.src ∧ fs'.hdr = fs.hdr := by
  induction cs generalizing fs b os with
  | nil => cases hl; exact ⟨h, rfl, rfl⟩
  | cons c cs ih =>
    have ih' := fun {fs : KFiles} {b : Bool} {os : List Bool} => ih (fun c hc' => hc c (by simp [hc'])) (fs := fs) (b := b) (os := os)
    rcases hc c (by simp) with ⟨p, hp, rfl⟩ | ⟨is, rfl⟩
    · rcases loop_clang hl with ⟨rfl, rfl⟩ | ⟨c, st, hs, ⟨os', h1⟩ | ⟨_, h1⟩⟩
      · exact ⟨h, rfl, rfl⟩
      · have h2 := ih' (modInv_obj hn h hp hs) h1
        exact ⟨h2.1, h2.2.1, h2.2.2⟩
      · exact ih' h h1
    · rcases loop_link hl with ⟨rfl, rfl⟩ | ⟨xs, os', _, h1⟩ | ⟨_, _, h1⟩
      · exact ⟨h, rfl, rfl⟩
      · have h2 := ih' (modInv_out ho h _ _) h1
        exact ⟨h2.1, h2.2.1, h2.2.2⟩
      · exact ih' h h1

private theorem loop_compile {srcs : List (Str × Str)} (hn : (srcs.map Prod.snd).Nodup) {t : Nat}
    {rest : List (Str × Str)} (hrest : rest.Sublist srcs) {cs : List LlCmd} {fs fs' : KFiles} {b : Bool} {os os' : List Bool}
    (h : ModInv srcs t fs) (hl : modLoop t (rest.map (fun p => .clang p.1 p.2) ++ cs) fs b os = (fs', some os')) :
    ∃ fs1 b1 os1, modLoop t cs fs1 b1 os1 = (fs', some os') ∧ fs1.src = fs.src ∧ fs1.hdr = fs.hdr ∧
      (∀ g, g ∉ rest.map Prod.snd → fs1.ll g = fs.ll g) ∧
      (∀ p ∈ rest, ∃ c st tm, fs1.src p.1 = some (c, st) ∧ fs1.ll p.2 = some (.compiled c fs1.hdr, tm)) ∧
      (b1 = false → fs1 = fs ∧ b = false) := by
  induction rest generalizing fs b os with
  | nil => exact ⟨fs, b, os, hl, rfl, rfl, fun _ _ => rfl, by simp, fun h => ⟨rfl, h⟩⟩
  | cons p rest ih =>
    have hp : p ∈ srcs := hrest.subset (by simp)
    have hnr : ((p :: rest).map Prod.snd).Nodup := hn.sublist (hrest.map Prod.snd)
    rw [List.map_cons, List.nodup_cons] at hnr
    have hsub : rest.Sublist srcs := (List.sublist_cons_self p rest).trans hrest
    rw [List.map_cons, List.cons_append] at hl
    rcases loop_clang hl with ⟨_, h0⟩ | ⟨c, st, hs, ⟨os', hl⟩ | ⟨hout, hl⟩⟩
    · cases h0
    · obtain ⟨fs1, b1, os1, h1, h2, h3, h4, h5, h6⟩ := ih hsub (modInv_obj hn h hp hs) hl
      refine ⟨fs1, b1, os1, h1, h2, h3, ?_, ?_, ?_⟩
      · intro g hg
        rw [List.map_cons, List.mem_cons, not_or] at hg
        rw [h4 g hg.2, setLl_get, if_neg hg.1]
      · intro q hq
        rcases List.mem_cons.1 hq with rfl | hq
        · refine ⟨c, st, t, by rw [h2]; exact hs, ?_⟩
          rw [h4 _ hnr.1, setLl_get, if_pos rfl, h3]
          rfl
        · exact h5 q hq
      · intro hb
        exact absurd (h6 hb).2 (by simp)
    · obtain ⟨fs1, b1, os1, h1, h2, h3, h4, h5, h6⟩ := ih hsub h hl
      refine ⟨fs1, b1, os1, h1, h2, h3, ?_, ?_, h6⟩
      · intro g hg
        rw [List.map_cons, List.mem_cons, not_or] at hg
        exact h4 g hg.2
      · intro q hq
        rcases List.mem_cons.1 hq with rfl | hq
        · cases hx : fs.ll q.2 with
          | none => rw [hx] at hout; cases hout
          | some y =>
            obtain ⟨x, tm⟩ := y
            rw [hx] at hout
            have hst : st ≤ tm := by simpa [outdated] using hout
            have := (h.2 q hp x tm hx).2 c st hs hst
            exact ⟨c, st, tm, by rw [h2]; exact hs, by rw [h4 _ hnr.1, hx, this, h3]⟩
        · exact h5 q hq

private theorem readAll_current {fs : KFiles} {srcs : List (Str × Str)}
    (h : ∀ p ∈ srcs, ∃ c st tm, fs.src p.1 = some (c, st) ∧ fs.ll p.2 = some (.compiled c fs.hdr, tm)) :
    ∃ xs, fs.readAll (srcs.map Prod.snd) = some xs ∧
      List.Forall₂ (fun p x => ∃ c st, fs.src p.1 = some (c, st) ∧ x = LlFile.compiled c fs.hdr) srcs xs := by
  induction srcs with
  | nil => exact ⟨[], rfl, .nil⟩
  | cons p srcs ih =>
    obtain ⟨xs, h1, h2⟩ := ih (fun q hq => h q (by simp [hq]))
    obtain ⟨c, st, tm, h3, h4⟩ := h p (by simp)
    refine ⟨.compiled c fs.hdr :: xs, ?_, .cons ⟨c, st, h3, rfl⟩ h2⟩
    rw [List.map_cons, KFiles.readAll, h4, h1]

private theorem readAll_congr {fs fs' : KFiles} {l : List Str} (h : ∀ g ∈ l, fs'.ll g = fs.ll g) : fs'.readAll l = fs.readAll l := by
  induction l with
  | nil => rfl
  | cons f l ih => rw [KFiles.readAll, KFiles.readAll, h f (by simp), ih (fun g hg => h g (by simp [hg]))]

/-- The file of the module is linked from the objects. -/
private def Linked (srcs : List (Str × Str)) (out : Str) (fs : KFiles) : Prop :=
  ∀ y tm, fs.ll out = some (y, tm) → ∃ xs n, y = (LlFile.opted)^[n] (.linked xs) ∧ fs.readAll (srcs.map Prod.snd) = some xs

private theorem buildModule_ok {srcs : List (Str × Str)} {out : Str} (hn : (srcs.map Prod.snd).Nodup)
    (ho : out ∉ srcs.map Prod.snd) {t : Nat} {os : List Bool} {fs fs' : KFiles} (hi : ModInv srcs t fs) (hk : Linked srcs out fs)
    (h : buildModule t (moduleCommands srcs out) out os fs = (fs', true)) :
    CurrentModule fs' srcs out ∧ Linked srcs out fs' := by
  unfold buildModule at h
  cases hm : modLoop t (moduleCommands srcs out) fs false os with
  | mk fs2 r =>
    rw [hm] at h
    cases r with
    | none => cases h
    | some os' =>
      obtain ⟨fs1, b1, os1, h1, h2, h3, h4, h5, h6⟩ := loop_compile hn (List.Sublist.refl srcs) hi hm
      obtain ⟨xs, hx1, hx2⟩ := readAll_current h5
      -- after linking
      have key : ∃ n tm, fs2.ll out = some ((LlFile.opted)^[n] (.linked xs), tm) ∧ fs2.src = fs1.src ∧ fs2.hdr = fs1.hdr ∧
          fs2.readAll (srcs.map Prod.snd) = some xs := by
        rcases loop_link h1 with ⟨_, h0⟩ | ⟨ys, os2, hys, h1⟩ | ⟨hb, ⟨⟨y, tm⟩, hy⟩, h1⟩
        · cases h0
        · rw [hx1] at hys
          cases hys
          rw [modLoop] at h1
          cases h1
          refine ⟨0, t, by rw [setLl_get, if_pos rfl]; rfl, rfl, rfl, ?_⟩
          rw [readAll_congr (fs := fs1)]
          · exact hx1
          · intro g hg
            have hne : g ≠ out := fun he => ho (he ▸ hg)
            rw [setLl_get, if_neg hne]
        · rw [modLoop] at h1
          cases h1
          obtain ⟨rfl, _⟩ := h6 hb
          obtain ⟨xs', n, e1, e2⟩ := hk y tm hy
          rw [hx1] at e2
          cases e2
          exact ⟨n, tm, by rw [hy, e1], rfl, rfl, hx1⟩
      obtain ⟨n, tm, k1, k2, k3, k4⟩ := key
      simp only at h
      split at h
      · next q hq =>
        rw [k1] at hq
        cases hq
        cases h
        have hrd : (fs2.setLl out (.opted ((LlFile.opted)^[n] (.linked xs))) t).readAll (srcs.map Prod.snd) = some xs := by
          rw [readAll_congr (fs := fs2)]
          · exact k4
          · intro g hg
            have hne : g ≠ out := fun he => ho (he ▸ hg)
            rw [setLl_get, if_neg hne]
        refine ⟨⟨xs, n, t, by rw [setLl_get, if_pos rfl, Function.iterate_succ_apply'], ?_⟩, ?_⟩
        · refine hx2.imp ?_
          rintro p x ⟨c, st, a, b⟩
          exact ⟨c, st, by rw [setLl_src, k2]; exact a, by rw [setLl_hdr, k3]; exact b⟩
        · intro y tm hy
          rw [setLl_get, if_pos rfl] at hy
          cases hy
          exact ⟨xs, n + 1, by rw [Function.iterate_succ_apply'], hrd⟩
      · cases h

private theorem buildModule_inv {srcs : List (Str × Str)} {out : Str} (hn : (srcs.map Prod.snd).Nodup)
    (ho : out ∉ srcs.map Prod.snd) {t : Nat} {os : List Bool} {fs fs' : KFiles} {r : Bool} (hi : ModInv srcs t fs)
    (h : buildModule t (moduleCommands srcs out) out os fs = (fs', r)) : ModInv srcs t fs' := by
  unfold buildModule at h
  cases hm : modLoop t (moduleCommands srcs out) fs false os with
  | mk fs2 r2 =>
    rw [hm] at h
    have h2 := (loop_inv hn ho (cs := moduleCommands srcs out) (by
      intro c hc
      rcases List.mem_append.1 hc with hc | hc
      · obtain ⟨p, hp, rfl⟩ := List.mem_map.1 hc
        exact .inl ⟨p, hp, rfl⟩
      · simp only [List.mem_singleton] at hc
        exact .inr ⟨_, hc⟩) hi hm).1
    cases r2 with
    | none => cases h; exact h2
    | some os' =>
      simp only at h
      split at h
      · cases h; exact modInv_out ho h2 _ _
      · cases h; exact h2

/-- **C135 (partial)** If headers do not change, times of changes and builds differ, and every build that does not return
either changes no file or leaves no linked file, then whenever the build of a module returns, the file of the module is
that of the current sources. Missing: the other histories (`C135_fails`). -/
theorem C135_current_partial (srcs : List (Str × Str)) (out : Str) (hn : (srcs.map Prod.snd).Nodup) (ho : out ∉ srcs.map Prod.snd)
    (t : Nat) (fs : KFiles)
    (h : BuildHistory False (fun t fs fs' => (∃ os, buildModule t (moduleCommands srcs out) out os fs = (fs', true)) ∨
      ((∃ os, buildModule t (moduleCommands srcs out) out os fs = (fs', false)) ∧ (fs'.ll = fs.ll ∨ fs'.ll out = none))) t fs)
    (t' : Nat) (os : List Bool) (fs' : KFiles) (ht : t < t')
    (hb : buildModule t' (moduleCommands srcs out) out os fs = (fs', true)) : CurrentModule fs' srcs out := by
  have inv : ModInv srcs t fs ∧ Linked srcs out fs := by
    clear hb ht
    induction h with
    | start t fs h1 h2 =>
      exact ⟨⟨h2, fun p _ x tm hx => by rw [h1] at hx; cases hx⟩, fun y tm hy => by rw [h1] at hy; cases hy⟩
    | edit t t' fs s c _ ht ih =>
      refine ⟨⟨?_, ?_⟩, ?_⟩
      · intro s' c' st hs
        simp only [KFiles.edit] at hs
        split at hs
        · cases hs; exact Nat.le_refl _
        · exact Nat.le_of_lt (Nat.lt_of_le_of_lt (ih.1.1 _ _ _ hs) ht)
      · intro p hp x tm hx
        obtain ⟨a, b⟩ := ih.1.2 p hp x tm hx
        refine ⟨by omega, fun c' st hs hst => ?_⟩
        simp only [KFiles.edit] at hs
        split at hs
        · cases hs; omega
        · exact b c' st hs hst
      · intro y tm hy
        obtain ⟨xs, n, e1, e2⟩ := ih.2 y tm hy
        exact ⟨xs, n, e1, by rw [readAll_congr (fs := fs) (fs' := fs.edit s c t') (fun _ _ => rfl)]; exact e2⟩
    | header _ _ _ _ h => exact h.elim
    | build t t' fs fs' _ ht hs ih =>
      have hi := modInv_mono ih.1 (Nat.le_of_lt ht)
      rcases hs with ⟨os, hs⟩ | ⟨⟨os, hs⟩, hf⟩
      · exact ⟨buildModule_inv hn ho hi hs, (buildModule_ok hn ho hi ih.2 hs).2⟩
      · refine ⟨buildModule_inv hn ho hi hs, ?_⟩
        rcases hf with hf | hf
        · intro y tm hy
          rw [hf] at hy
          obtain ⟨xs, n, e1, e2⟩ := ih.2 y tm hy
          exact ⟨xs, n, e1, by rw [readAll_congr (fs := fs) (fun g _ => by rw [hf])]; exact e2⟩
        · intro y tm hy
          rw [hf] at hy; cases hy
  exact (buildModule_ok hn ho (modInv_mono inv.1 (Nat.le_of_lt ht)) inv.2 hb).1

example : ∃ fs, BuildHistory False
    (fun t fs fs' => (∃ os, buildModule t (moduleCommands [(str! "a.c", str! "a.ll")] (str! "m.ll")) (str! "m.ll") os fs = (fs', true)) ∨
      ((∃ os, buildModule t (moduleCommands [(str! "a.c", str! "a.ll")] (str! "m.ll")) (str! "m.ll") os fs = (fs', false)) ∧
        (fs'.ll = fs.ll ∨ fs'.ll (str! "m.ll") = none))) 3 fs ∧
    ∃ fs', buildModule 4 (moduleCommands [(str! "a.c", str! "a.ll")] (str! "m.ll")) (str! "m.ll") [true, true, true] fs = (fs', true) :=
  ⟨_, .edit 2 3 _ (str! "a.c") 5 (.build 1 2 _ _ (.build 0 1 oneSource _ (oneSource_start _ _) (by decide)
      (.inr ⟨⟨[true], rfl⟩, .inr rfl⟩)) (by decide) (.inl ⟨[true, true], rfl⟩)) (by decide), _, rfl⟩

/-! ### C136 -/

/-- The statement of C136: `llvm-link` is given the LLVM files of all the objects that the linker was given. -/
def C136_statement : Prop :=
  ∀ (ws : List Str) (out : Str) (bs : List Str), (∀ w ∈ ws, Word w) → LinkLine (str! ".o") ws out (bs.map (· ++ str! ".o")) →
    ∃ out', LinkLine (str! ".ll") (ldToLlvm (joinChar ' ' ws)) out' (bs.map (· ++ str! ".ll"))

/-- The code does not satisfy C136: if the output is not an object, the first input is taken for the output. -/
theorem C136_fails : ¬ C136_statement := by
  intro h
  obtain ⟨out', ⟨before, after, h1, h2, h3, h4⟩⟩ := h [str! "ld", str! "-o", str! "m.so", str! "a.o"] (str! "m.so") [str! "a"]
    (by unfold Word; decide) ⟨[str! "ld"], [str! "a.o"], rfl, by decide, by decide, by decide⟩
  have h5 : [str! "llvm-link", str! "-S", str! "-o", str! "a.ll"] = before ++ str! "-o" :: out' :: after := by rw [← h1]; decide
  match before, h5 with
  | [], h5 => cases h5
  | [_], h5 => cases h5
  | [_, _], h5 =>
    cases h5
    revert h4
    decide
  | [_, _, _], h5 => cases h5
  | [_, _, _, _], h5 => cases h5
  | _ :: _ :: _ :: _ :: _ :: _, h5 => cases h5

/-- The translation of one word. -/
private def ldWord (w : Str) : Option Str :=
  if endsWith w (str! ".o") then some (w.take (w.length - 2) ++ str! ".ll") else if w = str! "-o" then some w else none

private theorem ldWord_object (b : Str) : ldWord (b ++ str! ".o") = some (b ++ str! ".ll") := by
  unfold ldWord
  rw [if_pos (endsWith_iff.2 ⟨b, rfl⟩)]
  have : (b ++ str! ".o").length - 2 = b.length := by simp
  rw [this, List.take_left]

private theorem ldWord_minus : ldWord (str! "-o") = some (str! "-o") := by decide

private theorem ldWords_out (l : List Str) (h : str! "-o" ∉ l) : str! "-o" ∉ l.filterMap ldWord := by
  intro hm
  obtain ⟨w, hw, he⟩ := List.mem_filterMap.1 hm
  unfold ldWord at he
  split at he
  · have := congrArg (Option.map List.getLast?) he
    simp at this
  · split at he
    · next hw' => exact h (hw' ▸ hw)
    · cases he

private theorem ldWords_in (l bs : List Str) (h : str! "-o" ∉ l) (hb : l.filter (fun w => endsWith w (str! ".o")) = bs.map (· ++ str! ".o")) :
    (l.filterMap ldWord).filter (fun w => endsWith w (str! ".ll")) = bs.map (· ++ str! ".ll") := by
  induction l generalizing bs with
  | nil =>
    cases bs with
    | nil => rfl
    | cons => cases hb
  | cons w l ih =>
    have hl : str! "-o" ∉ l := fun hm => h (List.mem_cons_of_mem _ hm)
    have hw : w ≠ str! "-o" := fun he => h (he ▸ List.mem_cons_self)
    cases he : endsWith w (str! ".o") with
    | true =>
      rw [List.filter_cons_of_pos (by exact he)] at hb
      cases bs with
      | nil => cases hb
      | cons b bs =>
        rw [List.map_cons] at hb
        injection hb with hb1 hb2
        rw [hb1, List.filterMap_cons, ldWord_object]
        dsimp only
        rw [List.filter_cons_of_pos (by exact endsWith_iff.2 ⟨b, rfl⟩), ih bs hl hb2]
        rfl
    | false =>
      rw [List.filter_cons_of_neg (by rw [he]; simp)] at hb
      have : ldWord w = none := by unfold ldWord; rw [he, if_neg (by simp), if_neg hw]
      rw [List.filterMap_cons, this]
      exact ih bs hl hb

/-- **C136 (partial)** For every command line of the linker whose output is an object, the command for `llvm-link` has the LLVM
files of all its objects, in their order, as its inputs, and the LLVM file of its output as the output.
Missing: other outputs (`C136_fails`). -/
theorem C136_link_partial (ws : List Str) (b : Str) (bs : List Str) (hw : ∀ w ∈ ws, Word w)
    (h : LinkLine (str! ".o") ws (b ++ str! ".o") (bs.map (· ++ str! ".o"))) :
    LinkLine (str! ".ll") (ldToLlvm (joinChar ' ' ws)) (b ++ str! ".ll") (bs.map (· ++ str! ".ll")) := by
  obtain ⟨before, after, h1, h2, h3, h4⟩ := h
  have e : ldToLlvm (joinChar ' ' ws) = str! "llvm-link" :: str! "-S" :: ws.filterMap ldWord := by
    unfold ldToLlvm
    rw [pySplit_join hw]
    rfl
  refine ⟨str! "llvm-link" :: str! "-S" :: before.filterMap ldWord, after.filterMap ldWord, ?_, ?_, ldWords_out _ h3, ?_⟩
  · rw [e, h1, List.filterMap_append, List.filterMap_cons, ldWord_minus]
    dsimp only
    rw [List.filterMap_cons, ldWord_object]
    rfl
  · intro hm
    simp only [List.mem_cons] at hm
    rcases hm with hm | hm | hm
    · revert hm; decide
    · revert hm; decide
    · exact ldWords_out _ h2 hm
  · have e1 : endsWith (str! "llvm-link") (str! ".ll") = false := by decide
    have e2 : endsWith (str! "-S") (str! ".ll") = false := by decide
    rw [List.cons_append, List.cons_append, List.filter_cons_of_neg (by rw [e1]; simp), List.filter_cons_of_neg (by rw [e2]; simp),
      ← List.filterMap_append]
    refine (ldWords_in (before ++ after) bs ?_ h4.symm).symm
    rw [List.mem_append, not_or]
    exact ⟨h2, h3⟩

example : LinkLine (str! ".o") [str! "ld", str! "-r", str! "-o", str! "d/m.o", str! "d/a.o", str! "d/b.o"] (str! "d/m" ++ str! ".o")
    ([str! "d/a", str! "d/b"].map (· ++ str! ".o")) :=
  ⟨[str! "ld", str! "-r"], [str! "d/a.o", str! "d/b.o"], rfl, by decide, by decide, by decide⟩

/-! ### C137 -/

/-- The statement of C137: the commands for a module contain the translation of each command by which Kbuild compiles a source
that is not the one generated for the module. -/
def C137_statement : Prop :=
  ∀ (name : Str) (lines : List Str) (xs : List (List Str)), kbuildToLlvm name (extractCommands lines) = .ok xs →
    ∀ (ws : List Str) (base : Str), (∀ w ∈ ws, Word w ∧ ';' ∉ w) → joinChar ' ' (str! "gcc" :: ws ++ [base ++ str! ".c"]) ∈ lines →
      (∀ d, base ≠ d ++ name ++ str! ".mod") →
      ∃ x ∈ xs, gccToLlvm (joinChar ' ' (str! "gcc" :: ws ++ [base ++ str! ".c"])) = .ok x

/-- The code does not satisfy C137: sources whose names contain that of the module with `.mod` are not compiled. -/
theorem C137_fails : ¬ C137_statement := by
  intro h
  obtain ⟨x, hx, _⟩ := h (str! "amd") [str! "gcc -c d/amd.model.c"] [] (by decide +kernel) [str! "-c"] (str! "d/amd.model")
    (by unfold Word; decide) (by decide) (by
      intro d he
      have := congrArg (fun l => l.getLast?) he
      simp at this)
  cases hx

private theorem runsTool_iff {c : Str} : ([str! "gcc", str! "ld"].any fun p => startsWith c p) = true ↔ RunsTool c := by
  simp only [List.any_cons, List.any_nil, Bool.or_false, Bool.or_eq_true, startsWith_iff]
  rfl

private theorem runsTool_first {sp c : Str} (hs : Spaces sp) (hc : RunsTool c) : (sp ++ c).dropWhile pySpace = c := by
  apply dropWhile_spaces hs
  intro ch r he
  rcases hc with ⟨r', rfl⟩ | ⟨r', rfl⟩
  · cases he; decide
  · cases he; decide

private theorem runsNot {b : Str} (h : ∀ a x, b = a ++ x → Spaces a → ¬ RunsTool x) : ¬ RunsTool (b.dropWhile pySpace) := by
  obtain ⟨a, ha, he⟩ := exists_dropWhile b
  exact h a _ he ha

private theorem extract_line {l : Str} {o : Option Str} (h : LineRuns l o) : extractCommand [str! "gcc", str! "ld"] l = o := by
  unfold extractCommand
  cases h with
  | runs before sp c after hb hs hc hsc ha =>
    rw [splitChar_join ';' _ (by simp)]
    · rw [List.map_append, List.map_cons, runsTool_first hs hc, List.find?_append]
      have e1 : (before.map (·.dropWhile pySpace)).find? (fun c => [str! "gcc", str! "ld"].any fun p => startsWith c p) = none := by
        rw [List.find?_eq_none]
        intro x hx hr
        obtain ⟨b, hb', rfl⟩ := List.mem_map.1 hx
        exact runsNot (hb b hb').2 (runsTool_iff.1 hr)
      rw [e1, List.find?_cons_of_pos (by exact runsTool_iff.2 hc)]
      rfl
    · intro w hw
      rcases List.mem_append.1 hw with hw | hw
      · exact (hb w hw).1
      · rcases List.mem_cons.1 hw with rfl | hw
        · rw [List.mem_append, not_or]
          refine ⟨fun hm => ?_, hsc⟩
          have := hs _ hm
          revert this
          decide
        · exact ha w hw
  | nothing cs hne hb =>
    rw [splitChar_join ';' _ hne (fun w hw => (hb w hw).1), List.find?_eq_none]
    intro x hx hr
    obtain ⟨b, hb', rfl⟩ := List.mem_map.1 hx
    exact runsNot (hb b hb').2 (runsTool_iff.1 hr)

private theorem wanted_runs {name c : Str} {o : Option (List Str)} (h : Wanted name c o) : RunsTool c := by
  cases h with
  | compile r => exact .inl ⟨r, rfl⟩
  | generated r => exact .inl ⟨r, rfl⟩
  | link r => exact .inr ⟨r, rfl⟩
  | final r => exact .inr ⟨r, rfl⟩

private theorem gcc_ld (r : Str) : startsWith ((str! "gcc") ++ r) (str! "ld") = false := rfl

private theorem ld_gcc (r : Str) : startsWith ((str! "ld") ++ r) (str! "gcc") = false := rfl

private theorem kbuild_wanted {name : Str} {cs : List Str} {os : List (Option (List Str))} (h : List.Forall₂ (Wanted name) cs os) :
    kbuildToLlvm name cs = .ok (os.filterMap id) := by
  induction h with
  | nil => rfl
  | @cons c o cs os hc _ ih =>
    have hr := runsTool_first (sp := []) (by unfold Spaces; simp) (wanted_runs hc)
    rw [List.nil_append] at hr
    rw [kbuildToLlvm, hr]
    cases hc with
    | compile r x h1 h2 =>
      rw [startsWith_iff.2 ⟨r, rfl⟩, decide_eq_false h1, h2, ih]
      rfl
    | generated r h1 =>
      rw [gcc_ld, decide_eq_true h1]
      simpa using ih
    | link r h1 =>
      rw [ld_gcc, startsWith_iff.2 ⟨r, rfl⟩, decide_eq_false h1, ih]
      rfl
    | final r h1 =>
      rw [ld_gcc, decide_eq_true h1]
      simpa using ih

/-- **C137 (partial)** For all lines printed by make, the commands of LLVM for the module are exactly the translations of the
first command of each line that runs gcc or the linker, in their order, without compilations that mention the name of the
module with `.mod` and links that mention it with `.ko`. Missing: sources whose names contain these (`C137_fails`). -/
theorem C137_commands_partial (name : Str) (lines : List Str) (cs : List (Option Str)) (os : List (Option (List Str)))
    (hl : List.Forall₂ LineRuns lines cs) (hc : List.Forall₂ (Wanted name) (cs.filterMap id) os) :
    kbuildToLlvm name (extractCommands lines) = .ok (os.filterMap id) := by
  have e : extractCommands lines = cs.filterMap id := by
    clear hc
    unfold extractCommands
    induction hl with
    | nil => rfl
    | @cons l o lines cs h _ ih =>
      rw [List.filterMap_cons, extract_line h, List.filterMap_cons, ih]
      rfl
  rw [e]
  exact kbuild_wanted hc

example : ∃ os, List.Forall₂ LineRuns [str! "set -e; gcc -c -o a.o a.c", str! "echo x", str! "ld -o m.o a.o ; true"]
      [some (str! "gcc -c -o a.o a.c"), none, some (str! "ld -o m.o a.o ")] ∧
    List.Forall₂ (Wanted (str! "m")) ([some (str! "gcc -c -o a.o a.c"), none, some (str! "ld -o m.o a.o ")].filterMap id) os := by
  have key : ∀ (b : Str), (([str! "gcc", str! "ld"].any fun p => startsWith (b.dropWhile pySpace) p) = false) →
      ∀ a x, b = a ++ x → Spaces a → ¬ RunsTool x := by
    intro b hb a x he ha hx
    rw [he, runsTool_first ha hx, runsTool_iff.2 hx] at hb
    cases hb
  have hs1 : Spaces (str! " ") := by unfold Spaces; decide
  have hs0 : Spaces (str! "") := by unfold Spaces; decide
  refine ⟨_, .cons ?_ (.cons ?_ (.cons ?_ .nil)), .cons (.compile (str! " -c -o a.o a.c") _ (by decide +kernel) rfl)
    (.cons (.link (str! " -o m.o a.o ") (by decide +kernel)) .nil)⟩
  · exact LineRuns.runs [str! "set -e"] (str! " ") (str! "gcc -c -o a.o a.c") []
      (by intro b hb; cases hb with
        | head => exact ⟨by decide, key _ (by decide)⟩
        | tail _ h => cases h) hs1 (.inl ⟨_, rfl⟩) (by decide) (by simp)
  · exact LineRuns.nothing [str! "echo x"] (by simp) (by
      intro b hb; cases hb with
        | head => exact ⟨by decide, key _ (by decide)⟩
        | tail _ h => cases h)
  · exact LineRuns.runs [] (str! "") (str! "ld -o m.o a.o ") [str! " true"] (by simp) hs0 (.inr ⟨_, rfl⟩) (by decide) (by decide)

end DK
