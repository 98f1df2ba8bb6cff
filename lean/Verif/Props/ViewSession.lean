import Verif.Spec.ViewSession
import Verif.Spec.Viewer

/-! C185: the viewer shows the files of the selected function; C186: the differing function is shown first. -/

set_option autoImplicit false

namespace DK
open Spec

variable {v : ViewResult} {defs : Str → Option (Defn × Bool)} {files : Str → Str} {fails : Bool}

/-- The files that have arrived are those of the specification. -/
private def FilesOk (files : Str → Str) (sp : CodeSpec) (code diff : Option Str) : Prop :=
  (∀ t, code = some t → t = files (srcPath sp.oldSrc)) ∧
    ∀ t, diff = some t → t = match sp.diff with | some d => files (diffPath d) | none => []

private def CodeOk (defs : Str → Option (Defn × Bool)) (files : Str → Str) (c : Str) (x : YamlDiff) (shown : Str)
    (k : CodeSt) : Prop :=
  k.key = c ++ str! "-" ++ shown ∧ codeSpec defs c x shown = some k.spec ∧ FilesOk files k.spec k.code k.diff

/-- What is missing has been requested. -/
private def Requested (run : Nat) (pending : List Fetch) (k : CodeSt) : Prop :=
  (k.code = none → ⟨run, false, srcPath k.spec.oldSrc⟩ ∈ pending) ∧
    (k.diff = none → ∃ d, k.spec.diff = some d ∧ ⟨run, true, diffPath d⟩ ∈ pending)

private structure SessInv (v : ViewResult) (defs : Str → Option (Defn × Bool)) (files : Str → Str) (fails : Bool)
    (s : Session) : Prop where
  runs : ∀ q ∈ s.pending, q.run ≤ s.run
  page : ∀ c d x, pageOf v s.nav = .difference c d x → ∃ p, s.difference = some p
  diff : ∀ p, s.difference = some p → ∃ c d x, pageOf v s.nav = .difference c d x ∧ p.key = c ++ d ∧
    (∀ k, p.code = some k → CodeOk defs files c x p.shown k) ∧
    (∀ sp, codeSpec defs c x p.shown = some sp → ∃ k, p.code = some k)
  current : ∀ q ∈ s.pending, q.run = s.run → ∃ p k, s.difference = some p ∧ p.code = some k ∧ q ∈ fetchesOf s.run k.spec
  live : fails = false → ∀ p k, s.difference = some p → p.code = some k → Requested s.run s.pending k

private theorem page_difference {n : NavState} {c d : Str} {x : YamlDiff} (h : pageOf v n = .difference c d x) :
    n.comp = some c ∧ n.diff = some d ∧ v.getDiff c d = some x := by
  obtain ⟨a, b⟩ := n
  cases a with
  | none =>
    simp only [pageOf, truthy] at h
    split at h <;> first | contradiction | (split at h <;> contradiction)
  | some a =>
    cases b with
    | none =>
      simp only [pageOf, truthy] at h
      split at h <;> first | contradiction | (split at h <;> contradiction)
    | some b =>
      cases ha : a.isEmpty <;> cases hb : b.isEmpty <;> simp only [pageOf, truthy, ha, hb, Bool.not_true, Bool.not_false] at h
      · cases hg : v.getDiff a b with
        | none => rw [hg] at h; cases h
        | some y => rw [hg] at h; cases h; exact ⟨rfl, rfl, hg⟩
      · cases hg : v.diffFunsFor a <;> rw [hg] at h <;> cases h
      · cases hg : v.compFunsFor b <;> rw [hg] at h <;> cases h
      · cases h

private theorem renderCode_ok {old : Option CodeSt} {key : Str} {sp : CodeSpec}
    (h : ∀ k, old = some k → k.key = key → FilesOk files sp k.code k.diff) :
    FilesOk files sp (renderCode old key sp).code (renderCode old key sp).diff := by
  have hk : ∀ k, (old.filter fun c => decide (c.key = key)) = some k → FilesOk files sp k.code k.diff := by
    intro k hk
    obtain ⟨h1, h2⟩ := Option.filter_eq_some_iff.1 hk
    exact h k h1 (by simpa using h2)
  constructor
  · intro t ht
    simp only [renderCode] at ht
    obtain ⟨k, hk1, hk2⟩ := Option.bind_eq_some_iff.1 ht
    exact (hk k hk1).1 t hk2
  · intro t ht
    cases hd : sp.diff with
    | none =>
      simp only [renderCode, hd, Option.some.injEq] at ht
      exact ht.symm
    | some d =>
      simp only [renderCode, hd] at ht
      obtain ⟨k, hk1, hk2⟩ := Option.bind_eq_some_iff.1 ht
      have := (hk k hk1).2 t hk2
      rw [hd] at this
      exact this

private theorem renderCode_requested (old : Option CodeSt) (key : Str) (sp : CodeSpec) (run : Nat) (l : List Fetch) :
    Requested run (l ++ fetchesOf run sp) (renderCode old key sp) := by
  constructor
  · intro _
    exact List.mem_append_right _ (by simp [fetchesOf, renderCode])
  · intro hd
    cases hs : sp.diff with
    | none => simp [renderCode, hs] at hd
    | some d => exact ⟨d, by simp [renderCode, hs], List.mem_append_right _ (by simp [fetchesOf, hs])⟩

private theorem fetches_run {run : Nat} {sp : CodeSpec} {q : Fetch} (h : q ∈ fetchesOf run sp) : q.run = run := by
  simp only [fetchesOf, List.mem_cons] at h
  rcases h with h | h
  · rw [h]
  · split at h
    · rw [List.mem_singleton] at h; rw [h]
    · cases h

/-- Rendering a difference keeps the invariant. -/
private theorem renderDifference_inv {s : Session} {key c d : Str} {x : YamlDiff} {shown : Str} {old : Option CodeSt}
    (hr : ∀ q ∈ s.pending, q.run ≤ s.run) (hp : pageOf v s.nav = .difference c d x) (hk : key = c ++ d)
    (ho : ∀ k sp, old = some k → k.key = c ++ str! "-" ++ shown → codeSpec defs c x shown = some sp →
      FilesOk files sp k.code k.diff) :
    SessInv v defs files fails (renderDifference defs s key c x shown old) := by
  subst hk
  cases hs : codeSpec defs c x shown with
  | none =>
    have he : renderDifference defs s (c ++ d) c x shown old =
        { s with difference := some ⟨c ++ d, shown, none⟩, run := s.run + 1 } := by simp [renderDifference, hs]
    rw [he]
    refine ⟨fun q hq => Nat.le_succ_of_le (hr q hq), fun _ _ _ _ => ⟨_, rfl⟩, ?_, ?_, ?_⟩
    · intro p h
      cases h
      exact ⟨c, d, x, hp, rfl, fun k h => (by cases h), fun sp h => (by dsimp only at h; rw [hs] at h; cases h)⟩
    · intro q hq he
      have := hr q hq
      dsimp only at he
      omega
    · intro _ p k h h'
      cases h
      cases h'
  | some sp =>
    have he : renderDifference defs s (c ++ d) c x shown old =
        { s with difference := some ⟨c ++ d, shown, some (renderCode old (c ++ str! "-" ++ shown) sp)⟩
                 run := s.run + 1
                 pending := s.pending ++ fetchesOf (s.run + 1) sp } := by simp [renderDifference, hs]
    rw [he]
    refine ⟨?_, fun _ _ _ _ => ⟨_, rfl⟩, ?_, ?_, ?_⟩
    · intro q hq
      rcases List.mem_append.1 hq with h | h
      · exact Nat.le_succ_of_le (hr q h)
      · exact (fetches_run h).le
    · intro p h
      cases h
      refine ⟨c, d, x, hp, rfl, ?_, fun _ _ => ⟨_, rfl⟩⟩
      intro k h
      cases h
      exact ⟨rfl, hs, renderCode_ok (fun k h1 h2 => ho k sp h1 h2 hs)⟩
    · intro q hq he
      rcases List.mem_append.1 hq with h | h
      · have := hr q h
        dsimp only at he
        omega
      · exact ⟨_, _, rfl, rfl, h⟩
    · intro _ p k h h'
      cases h
      cases h'
      exact renderCode_requested _ _ _ _ _

private theorem renderViewer_inv {s : Session} (hi : SessInv v defs files fails s) (n : NavState) :
    SessInv v defs files fails (renderViewer v defs { s with nav := n }) := by
  have other : SessInv v defs files fails (renderViewer v defs { s with nav := n }) ∨
      ∃ c d x, pageOf v n = .difference c d x := by
    cases hp : pageOf v n with
    | difference c d x => exact .inr ⟨c, d, x, rfl⟩
    | _ =>
      left
      simp only [renderViewer, hp]
      refine ⟨fun q hq => Nat.le_succ_of_le (hi.runs q hq), ?_, ?_, ?_, ?_⟩
      · intro c d x h; dsimp only at h; rw [hp] at h; cases h
      · intro p h; cases h
      · intro q hq he
        have := hi.runs q hq
        dsimp only at he
        omega
      · intro _ p k h; cases h
  rcases other with h | ⟨c, d, x, hp⟩
  · exact h
  · simp only [renderViewer, hp]
    cases hf : s.difference.filter fun p => decide (p.key = c ++ d) with
    | none =>
      exact renderDifference_inv hi.runs hp rfl (fun k sp h => by cases h)
    | some p =>
      obtain ⟨h1, h2⟩ := Option.filter_eq_some_iff.1 hf
      have hkey : p.key = c ++ d := by simpa using h2
      obtain ⟨c', d', x', hp', hk', hc', -⟩ := hi.diff p h1
      refine renderDifference_inv hi.runs hp rfl ?_
      intro k sp hk hkk hsp
      obtain ⟨e1, e2, e3⟩ := hc' k hk
      have hc : c' = c := by
        rw [e1] at hkk
        exact List.append_cancel_right (List.append_cancel_right hkk)
      subst hc
      have hd : d' = d := List.append_cancel_left (hk'.symm.trans hkey)
      subst hd
      have hx : x' = x := by
        have := (page_difference hp').2.2
        rw [(page_difference hp).2.2] at this
        exact (Option.some.inj this).symm
      subst hx
      rw [e2] at hsp
      cases hsp
      exact e3

private theorem fetch_kind {run : Nat} {sp : CodeSpec} {q : Fetch} (h : q ∈ fetchesOf run sp) :
    q = ⟨run, false, srcPath sp.oldSrc⟩ ∨ ∃ d, sp.diff = some d ∧ q = ⟨run, true, diffPath d⟩ := by
  simp only [fetchesOf, List.mem_cons] at h
  rcases h with h | h
  · exact .inl h
  · split at h
    · rename_i d hd
      rw [List.mem_singleton] at h; exact .inr ⟨d, hd, h⟩
    · cases h

private theorem erase_inv {s : Session} {i : Nat} (hi : SessInv v defs files fails s) :
    SessInv v defs files true { s with pending := s.pending.eraseIdx i } :=
  ⟨fun q hq => hi.runs q (List.mem_of_mem_eraseIdx hq), hi.page, hi.diff,
    fun q hq => hi.current q (List.mem_of_mem_eraseIdx hq), fun h => by cases h⟩

private theorem answer_inv {s : Session} {i : Nat} {q : Fetch} (hi : SessInv v defs files fails s)
    (hq : s.pending[i]? = some q) :
    SessInv v defs files fails (answer files { s with pending := s.pending.eraseIdx i } q) := by
  have hmem : q ∈ s.pending := List.mem_of_getElem? hq
  have hkeep : ∀ f ∈ s.pending, f ≠ q → f ∈ s.pending.eraseIdx i := by
    intro f hf hne
    obtain ⟨j, hj⟩ := List.mem_iff_getElem?.1 hf
    refine List.mem_eraseIdx_iff_getElem?.2 ⟨j, ?_, hj⟩
    intro he
    subst he
    rw [hq] at hj
    exact hne (Option.some.inj hj).symm
  by_cases hrun : q.run = s.run
  · obtain ⟨p, k, hp, hk, hf⟩ := hi.current q hmem hrun
    obtain ⟨c, d, x, hpg, hkey, hck, hsp⟩ := hi.diff p hp
    obtain ⟨e1, e2, e3, e4⟩ := hck k hk
    have he : answer files { s with pending := s.pending.eraseIdx i } q =
        { s with pending := s.pending.eraseIdx i
                 difference := some ⟨p.key, p.shown, some (setFile q.isDiff (files q.file) k)⟩ } := by
      simp [answer, hrun, hp, hk]
    rw [he]
    have hspec : (setFile q.isDiff (files q.file) k).spec = k.spec := by
      unfold setFile; split <;> rfl
    have hkk : (setFile q.isDiff (files q.file) k).key = k.key := by
      unfold setFile; split <;> rfl
    refine ⟨fun f hf => hi.runs f (List.mem_of_mem_eraseIdx hf), fun _ _ _ _ => ⟨_, rfl⟩, ?_, ?_, ?_⟩
    · intro p' h
      cases h
      refine ⟨c, d, x, hpg, hkey, ?_, fun _ _ => ⟨_, rfl⟩⟩
      intro k' h
      cases h
      refine ⟨hkk.trans e1, hspec ▸ e2, ?_⟩
      rw [hspec]
      rcases fetch_kind hf with h | ⟨dd, hdd, h⟩
      · subst h
        exact ⟨fun t ht => by simpa [setFile] using ht.symm, fun t ht => e4 t (by simpa [setFile] using ht)⟩
      · subst h
        refine ⟨fun t ht => e3 t (by simpa [setFile] using ht), fun t ht => ?_⟩
        rw [hdd]
        simpa [setFile] using ht.symm
    · intro f hf' hfr
      obtain ⟨p', k', hp', hk', hf''⟩ := hi.current f (List.mem_of_mem_eraseIdx hf') hfr
      rw [hp] at hp'
      cases hp'
      rw [hk] at hk'
      cases hk'
      exact ⟨_, _, rfl, rfl, by rw [hspec]; exact hf''⟩
    · intro hfail p' k' h h'
      cases h
      cases h'
      obtain ⟨r1, r2⟩ := hi.live hfail p k hp hk
      refine ⟨?_, ?_⟩
      · intro hn
        rw [hspec]
        rcases fetch_kind hf with h | ⟨dd, hdd, h⟩
        · subst h; simp [setFile] at hn
        · subst h
          refine hkeep _ (r1 (by simpa [setFile] using hn)) ?_
          intro h; cases h
      · intro hn
        rw [hspec]
        rcases fetch_kind hf with h | ⟨dd, hdd, h⟩
        · subst h
          obtain ⟨d', hd1, hd2⟩ := r2 (by simpa [setFile] using hn)
          refine ⟨d', hd1, hkeep _ hd2 ?_⟩
          intro h; cases h
        · subst h; simp [setFile] at hn
  · have he : answer files { s with pending := s.pending.eraseIdx i } q =
        { s with pending := s.pending.eraseIdx i } := by simp [answer, hrun]
    rw [he]
    refine ⟨fun f hf => hi.runs f (List.mem_of_mem_eraseIdx hf), hi.page, hi.diff,
      fun f hf => hi.current f (List.mem_of_mem_eraseIdx hf), ?_⟩
    intro hfail p k hp hk
    obtain ⟨r1, r2⟩ := hi.live hfail p k hp hk
    refine ⟨fun hn => hkeep _ (r1 hn) ?_, fun hn => ?_⟩
    · intro h; rw [← h] at hrun; exact hrun rfl
    · obtain ⟨d, h1, h2⟩ := r2 hn
      refine ⟨d, h1, hkeep _ h2 ?_⟩
      intro h; rw [← h] at hrun; exact hrun rfl

private theorem step_inv {s s' : Session} {e : SessEvent} (hi : SessInv v defs files fails s)
    (hf : ∀ i, e = .fail i → fails = true) (h : sessStep v defs files s e = some s') :
    SessInv v defs files fails s' := by
  cases e with
  | nav e =>
    simp only [sessStep, Option.map_eq_some_iff] at h
    obtain ⟨n, -, h⟩ := h
    rw [← h]
    exact renderViewer_inv hi n
  | select f =>
    cases hp : s.difference with
    | none =>
      cases hpg : pageOf v s.nav <;> simp [sessStep, hp, hpg] at h
    | some p =>
      obtain ⟨c, d, x, hpg, hkey, hck, -⟩ := hi.diff p hp
      simp only [sessStep, hp, hpg] at h
      split at h
      · cases h
        refine renderDifference_inv hi.runs hpg hkey ?_
        intro k sp hk hkk hsp
        obtain ⟨e1, e2, e3⟩ := hck k hk
        have : p.shown = f := by rw [e1] at hkk; exact List.append_cancel_left hkk
        rw [this] at e2
        rw [e2] at hsp
        cases hsp
        exact e3
      · cases h
  | arrive i =>
    simp only [sessStep] at h
    split at h
    · rename_i q hq
      cases h
      exact answer_inv hi hq
    · cases h
  | fail i =>
    have := hf i rfl
    subst this
    simp only [sessStep] at h
    split at h
    · cases h
      exact erase_inv hi
    · cases h

private theorem reach_inv {s : Session} (h : SessReach v defs files fails s) : SessInv v defs files fails s := by
  induction h with
  | start =>
    refine ⟨by simp [firstSession], ?_, ?_, by simp [firstSession], ?_⟩
    · intro c d x h
      have := (page_difference h).1
      cases this
    · intro p h; cases h
    · intro _ p k h; cases h
  | step e _ hf he ih => exact step_inv ih hf he

/-- The name that is looked up. -/
private theorem plain_takeWhile (f : Str) : BareName f (f.takeWhile fun c => decide (c ≠ ' ')) := by
  induction f with
  | nil => exact ⟨by simp, .inl rfl⟩
  | cons c f ih =>
    by_cases hc : c = ' '
    · subst hc
      exact ⟨by simp, .inr ⟨f, by simp⟩⟩
    · rw [List.takeWhile_cons_of_pos (by simpa using hc)]
      refine ⟨?_, ?_⟩
      · rw [List.mem_cons, not_or]
        exact ⟨fun h => hc h.symm, ih.1⟩
      · rcases ih.2 with h | ⟨r, h⟩
        · exact .inl (by rw [← h])
        · exact .inr ⟨r, by rw [List.cons_append, ← h]⟩

private theorem takeWhile_plain {f n : Str} (h : BareName f n) : (f.takeWhile fun c => decide (c ≠ ' ')) = n := by
  obtain ⟨h1, h2⟩ := h
  induction n generalizing f with
  | nil =>
    rcases h2 with rfl | ⟨r, rfl⟩
    · rfl
    · simp
  | cons c n ih =>
    rw [List.mem_cons, not_or] at h1
    have hc : decide (c ≠ ' ') = true := by simpa using fun h => h1.1 (Eq.symm h)
    rcases h2 with rfl | ⟨r, rfl⟩
    · rw [List.takeWhile_cons_of_pos (p := fun c => decide (c ≠ ' ')) hc, ih h1.2 (.inl rfl)]
    · rw [List.cons_append, List.takeWhile_cons_of_pos (p := fun c => decide (c ≠ ' ')) hc, ih h1.2 (.inr ⟨r, rfl⟩)]

private theorem filesOf_spec {c f : Str} {x : YamlDiff} {sp : CodeSpec} {text diff : Str} (h : codeSpec defs c x f = some sp)
    (ht : text = files (srcPath sp.oldSrc))
    (hd : match sp.diff with | some d => diff = files (diffPath d) | none => diff = []) :
    FilesOf defs files f sp text diff := by
  unfold codeSpec at h
  dsimp only at h
  split at h
  · cases h
  · rename_i d flag hdef
    split at h
    · rename_i e1 e2 he1 he2
      cases h
      refine ⟨_, d, flag, plain_takeWhile f, hdef, rfl, rfl, rfl, rfl, he1.symm, ht, ?_⟩
      cases flag
      · exact hd
      · exact hd
    · cases h

/-- **C185** Whatever has been clicked and in whatever order files arrive or fail to arrive: if code is displayed, a
difference is selected, the code is described by the definition of the selected function of this difference, and text and
diff are the files of this function. -/
theorem C185_right_files (v : ViewResult) (defs : Str → Option (Defn × Bool)) (files : Str → Str) (s : Session)
    (h : SessReach v defs files true s) (sp : CodeSpec) (text diff : Str) (hd : displayed s = some (sp, text, diff)) :
    ∃ c d x f, s.nav = ⟨some c, some d⟩ ∧ v.getDiff c d = some x ∧ selected s = some f ∧
      FilesOf defs files f sp text diff := by
  have hi := reach_inv h
  cases hp : s.difference with
  | none => simp [displayed, hp] at hd
  | some p =>
    cases hk : p.code with
    | none => simp [displayed, hp, hk] at hd
    | some k =>
      obtain ⟨c, d, x, hpg, -, hck, -⟩ := hi.diff p hp
      obtain ⟨-, e2, e3, e4⟩ := hck k hk
      cases hc : k.code with
      | none => simp [displayed, hp, hk, hc] at hd
      | some t =>
        cases hdf : k.diff with
        | none => simp [displayed, hp, hk, hc, hdf] at hd
        | some u =>
          simp only [displayed, hp, hk, hc, hdf, Option.some.injEq, Prod.mk.injEq] at hd
          obtain ⟨rfl, rfl, rfl⟩ := hd
          obtain ⟨n1, n2, n3⟩ := page_difference hpg
          refine ⟨c, d, x, p.shown, ?_, n3, by simp [selected, hp], filesOf_spec e2 (e3 t hc) ?_⟩
          · cases hn : s.nav with
            | mk a b => rw [hn] at n1 n2; exact congrArg₂ NavState.mk n1 n2
          · have := e4 u hdf
            cases hsd : k.spec.diff with
            | none => rw [hsd] at this; exact this
            | some dd => rw [hsd] at this; exact this

private theorem answers_reach {s s' : Session} (h : SessReach v defs files fails s) (ha : Answers v defs files s s') :
    SessReach v defs files fails s' := by
  induction ha with
  | refl => exact h
  | step i he _ ih => exact ih (h.step (.arrive i) (fun j hj => by cases hj) he)

private theorem answers_same {s s' : Session} (ha : Answers v defs files s s') :
    s'.nav = s.nav ∧ selected s' = selected s := by
  induction ha with
  | refl => exact ⟨rfl, rfl⟩
  | step i he _ ih =>
    rw [ih.1, ih.2]
    simp only [sessStep] at he
    split at he
    · rename_i s1 s2 s3 q hq
      cases he
      unfold answer
      split
      · refine ⟨rfl, ?_⟩
        simp only [selected, Option.map_map]
        rfl
      · exact ⟨rfl, rfl⟩
    · cases he

/-- **C185** After any sequence of clicks without failing requests, when the answers to the requests of the last selection
have come, in any order and mixed with older answers, the code of the selected function is displayed, if there is
information about it. -/
theorem C185_shown (v : ViewResult) (defs : Str → Option (Defn × Bool)) (files : Str → Str) (s s' : Session)
    (h : SessReach v defs files false s) (ha : Answers v defs files s s') (hno : ∀ q ∈ s'.pending, q.run ≠ s'.run)
    (c d f n : Str) (x : YamlDiff) (dfn : Defn) (flag : Bool) (hp : pageOf v s.nav = .difference c d x)
    (hf : selected s = some f) (hpn : BareName f n) (hdef : defs n = some (dfn, flag))
    (ho : dfn.old.endLine ≠ none) (hw : dfn.new.endLine ≠ none) :
    ∃ sp text diff, displayed s' = some (sp, text, diff) ∧ FilesOf defs files f sp text diff := by
  obtain ⟨sp, hs⟩ : ∃ sp, codeSpec defs c x f = some sp := by
    unfold codeSpec
    rw [takeWhile_plain hpn]
    dsimp only
    rw [hdef]
    dsimp only
    cases h1 : dfn.old.endLine with
    | none => exact absurd h1 ho
    | some e1 =>
      cases h2 : dfn.new.endLine with
      | none => exact absurd h2 hw
      | some e2 => exact ⟨_, rfl⟩
  have hr := answers_reach h ha
  obtain ⟨hn, hsel⟩ := answers_same ha
  have hi := reach_inv hr
  rw [← hn] at hp
  rw [← hsel] at hf
  obtain ⟨p, hd⟩ := hi.page c d x hp
  obtain ⟨c', d', x', hp', -, hck, hsp⟩ := hi.diff p hd
  rw [hp] at hp'
  cases hp'
  have hsh : p.shown = f := by simpa [selected, hd] using hf
  obtain ⟨k, hk⟩ := hsp sp (by rw [hsh]; exact hs)
  obtain ⟨-, e2, e3, e4⟩ := hck k hk
  rw [hsh, hs] at e2
  cases e2
  obtain ⟨r1, r2⟩ := hi.live rfl p k hd hk
  cases hc : k.code with
  | none => exact absurd rfl (hno _ (r1 hc))
  | some t =>
    cases hdf : k.diff with
    | none =>
      obtain ⟨dd, -, hm⟩ := r2 hdf
      exact absurd rfl (hno _ hm)
    | some u =>
      refine ⟨_, t, u, by simp [displayed, hd, hk, hc, hdf], filesOf_spec (by rw [hsh] at *; exact hs) (e3 t hc) ?_⟩
      have := e4 u hdf
      cases hsd : k.spec.diff with
      | none => rw [hsd] at this; exact this
      | some dd => rw [hsd] at this; exact this

/-- **C185** The requests that are open can be answered in any order, and then none is left. -/
theorem C185_answers (v : ViewResult) (defs : Str → Option (Defn × Bool)) (files : Str → Str) (s : Session) :
    (∀ i < s.pending.length, ∃ s', sessStep v defs files s (.arrive i) = some s' ∧
      s'.pending = s.pending.eraseIdx i) ∧
    ∃ s', Answers v defs files s s' ∧ s'.pending = [] := by
  have one : ∀ (s : Session), ∀ i < s.pending.length, ∃ s', sessStep v defs files s (.arrive i) = some s' ∧
      s'.pending = s.pending.eraseIdx i := by
    intro s i hi
    refine ⟨_, by simp only [sessStep, List.getElem?_eq_getElem hi]; rfl, ?_⟩
    unfold answer
    split <;> rfl
  refine ⟨one s, ?_⟩
  generalize hn : s.pending.length = n
  induction n generalizing s with
  | zero => exact ⟨s, .refl s, List.length_eq_zero_iff.1 hn⟩
  | succ n ih =>
    obtain ⟨s', h1, h2⟩ := one s 0 (by omega)
    obtain ⟨s'', h3, h4⟩ := ih s' (by rw [h2, List.length_eraseIdx]; split <;> omega)
    exact ⟨s'', .step 0 h1 h3, h4⟩

namespace SessEx
def place (l e : Nat) (file : Str) : DefInfo := { line := some l, file := file, endLine := some e }
/-- All functions are defined, each in a file of its own, and have a diff. -/
def exDefs : Str → Option (Defn × Bool) := fun n => some (⟨.function, place 1 9 (n ++ str! ".c"), place 2 8 (n ++ str! ".c")⟩, true)
def exFiles : Str → Str := fun p => str! "text of " ++ p
/-- Two compared functions `a` and `ab` that differ in `bc` and in `c`. -/
def exFile : ViewFile :=
  [(str! "a", [⟨str! "bc", [⟨str! "bc", str! "a.c", 3⟩], [⟨str! "bc", str! "a.c", 4⟩]⟩]),
   (str! "ab", [⟨str! "c", [⟨str! "c", str! "ab.c", 5⟩], [⟨str! "c", str! "ab.c", 5⟩]⟩])]
def result : ViewResult := viewResult (fun _ _ => true) exFile
def noFail : SessEvent → Bool
  | .fail _ => false
  | _ => true
/-- The session after some events. -/
def run (es : List SessEvent) : Option Session :=
  es.foldl (fun s e => s.bind fun s => sessStep result exDefs exFiles s e) (some firstSession)

private theorem run_reach_from (es : List SessEvent) (hf : es.all noFail = true) (s s' : Session)
    (hs : SessReach result exDefs exFiles fails s)
    (h : es.foldl (fun s e => s.bind fun s => sessStep result exDefs exFiles s e) (some s) = some s') :
    SessReach result exDefs exFiles fails s' := by
  induction es generalizing s with
  | nil => cases h; exact hs
  | cons e es ih =>
    rw [List.foldl_cons, Option.bind_some] at h
    cases hst : sessStep result exDefs exFiles s e with
    | none =>
      rw [hst] at h
      have : ∀ l : List SessEvent, l.foldl (fun s e => s.bind fun s => sessStep result exDefs exFiles s e) none = none := by
        intro l; induction l with
        | nil => rfl
        | cons a l ih => rw [List.foldl_cons]; exact ih
      rw [this] at h
      cases h
    | some s1 =>
      rw [hst] at h
      rw [List.all_cons, Bool.and_eq_true] at hf
      exact ih hf.2 s1 (hs.step e (fun i hi => by rw [hi] at hf; cases hf.1) hst) h

theorem run_reach {es : List SessEvent} (hf : es.all noFail = true) {s : Session} (h : run es = some s) :
    SessReach result exDefs exFiles fails s := run_reach_from es hf _ _ .start h
end SessEx

/-- The first difference is selected, and then the compared function; the diff of the selected function arrives before
the older files and before its code. -/
example : ∃ s, SessReach SessEx.result SessEx.exDefs SessEx.exFiles false s ∧ selected s = some (str! "a") ∧
    s.pending = [⟨2, false, str! "src/bc.c"⟩, ⟨3, true, str! "diffs/bc.diff"⟩] ∧
    (displayed s).map Prod.snd = some (str! "text of src/a.c", str! "text of diffs/a.diff") :=
  ⟨_, SessEx.run_reach (es := [.nav (.select (str! "a")), .nav (.select (str! "bc")), .select (str! "bc"), .arrive 2, .arrive 1,
      .select (str! "a"), .arrive 3, .arrive 2])
    (by decide) rfl, rfl, rfl, rfl⟩

/-- The kind of a function in a call stack does not belong to its name; all requests of the last selection are answered. -/
example : BareName (str! "bc (macro)") (str! "bc") ∧ ∃ s, SessReach SessEx.result SessEx.exDefs SessEx.exFiles false s ∧
    selected s = some (str! "bc") ∧ s.pending = [] ∧ pageOf SessEx.result s.nav ≠ .broken ∧
    (displayed s).map Prod.snd = some (str! "text of src/bc.c", str! "text of diffs/bc.diff") :=
  ⟨⟨by decide, .inr ⟨str! "(macro)", rfl⟩⟩, _, SessEx.run_reach (es := [.nav (.select (str! "a")), .nav (.select (str! "bc")),
    .arrive 1, .arrive 0]) (by decide) rfl, rfl, rfl, by decide, rfl⟩

/-- **C186** When another difference is opened, the differing function (the last one of the call stack) is selected; and
whenever a difference is shown, the selected function is one of its call stack. -/
def C186_statement : Prop :=
  ∀ (le : Str → Str → Bool) (file : ViewFile) (defs : Str → Option (Defn × Bool)) (files : Str → Str) (s : Session),
    SessReach (viewResult le file) defs files true s →
    (∀ (e : NavEvent) (s' : Session) (c d : Str) (x : YamlDiff), sessStep (viewResult le file) defs files s (.nav e) = some s' →
      s'.nav ≠ s.nav → pageOf (viewResult le file) s'.nav = .difference c d x →
      selected s' = some (((x.oldStack.map Call.name).getLast?).getD c)) ∧
    ∀ (c d f : Str) (x : YamlDiff), pageOf (viewResult le file) s.nav = .difference c d x → selected s = some f →
      f = c ∨ f ∈ x.oldStack.map Call.name ∨ f ∈ x.newStack.map Call.name

/-- **C186 fails**: compared functions `a` and `ab` with differing functions `bc` and `c`. The two differences have the
same key, so that after a click on "next" the function `bc` of the other difference stays selected. -/
theorem C186_fails : ¬ C186_statement := by
  intro h
  have hr : SessReach SessEx.result SessEx.exDefs SessEx.exFiles true _ :=
    SessEx.run_reach (es := [.nav (.select (str! "a")), .nav (.select (str! "bc")), .nav .nextComp]) (by decide) rfl
  have := (h _ SessEx.exFile SessEx.exDefs SessEx.exFiles _ hr).2 (str! "ab") (str! "c") (str! "bc") _ rfl rfl
  revert this
  decide

private theorem initialShown_eq (c : Str) (x : YamlDiff) :
    initialShown c x = ((x.oldStack.map Call.name).getLast?).getD c := by
  unfold initialShown
  rw [List.getLast?_map]
  cases x.oldStack.getLast? <;> rfl

private theorem selected_render (defs : Str → Option (Defn × Bool)) (s : Session) (key c : Str) (x : YamlDiff) (shown : Str)
    (old : Option CodeSt) : selected (renderDifference defs s key c x shown old) = some shown ∧
      (renderDifference defs s key c x shown old).nav = s.nav := by
  unfold renderDifference
  split <;> exact ⟨rfl, rfl⟩

private theorem opened (hk : KeysDiffer v) {s : Session} (hi : SessInv v defs files fails s) {n : NavState} {c d : Str}
    {x : YamlDiff} (hp : pageOf v n = .difference c d x) :
    (renderViewer v defs { s with nav := n }).nav = n ∧
    ((n ≠ s.nav ∧ selected (renderViewer v defs { s with nav := n }) = some (initialShown c x)) ∨
      (n = s.nav ∧ selected (renderViewer v defs { s with nav := n }) = selected s) ∨
      selected (renderViewer v defs { s with nav := n }) = some (initialShown c x)) := by
  simp only [renderViewer, hp]
  cases hf : s.difference.filter fun p => decide (p.key = c ++ d) with
  | none =>
    dsimp only
    exact ⟨(selected_render _ _ _ _ _ _ _).2, .inr (.inr (selected_render _ _ _ _ _ _ _).1)⟩
  | some p =>
    obtain ⟨h1, h2⟩ := Option.filter_eq_some_iff.1 hf
    have hkey : p.key = c ++ d := by simpa using h2
    obtain ⟨c', d', x', hp', hk', -⟩ := hi.diff p h1
    obtain ⟨a1, a2, a3⟩ := page_difference hp
    obtain ⟨b1, b2, b3⟩ := page_difference hp'
    obtain ⟨rfl, rfl⟩ := hk c' d' c d x' x b3 a3 (hk'.symm.trans hkey)
    have hn : n = s.nav := by
      cases n; cases hs : s.nav
      rw [hs] at b1 b2
      dsimp only at a1 a2 b1 b2
      rw [a1, a2, b1, b2]
    dsimp only
    exact ⟨(selected_render _ _ _ _ _ _ _).2, .inr (.inl ⟨hn, by
      rw [(selected_render _ _ _ _ _ _ _).1]; simp [selected, h1]⟩)⟩

/-- **C186 (partial)** If different differences have different keys: the differing function is selected when a difference
is opened, and the selected function always belongs to the call stack of the difference. Missing: see `C186_fails`. -/
theorem C186_opened_partial (v : ViewResult) (hk : KeysDiffer v) (defs : Str → Option (Defn × Bool)) (files : Str → Str)
    (s : Session) (h : SessReach v defs files true s) :
    (∀ (e : NavEvent) (s' : Session) (c d : Str) (x : YamlDiff), sessStep v defs files s (.nav e) = some s' →
      s'.nav ≠ s.nav → pageOf v s'.nav = .difference c d x →
      selected s' = some (((x.oldStack.map Call.name).getLast?).getD c)) ∧
    ∀ (c d f : Str) (x : YamlDiff), pageOf v s.nav = .difference c d x → selected s = some f →
      f = c ∨ f ∈ x.oldStack.map Call.name ∨ f ∈ x.newStack.map Call.name := by
  have navs : ∀ (n : NavState), (renderViewer v defs { s with nav := n }).nav = n := by
    intro n
    unfold renderViewer
    split
    · split <;> exact (selected_render _ _ _ _ _ _ _).2
    · rfl
  constructor
  · intro e s' c d x hs hne hp
    simp only [sessStep, Option.map_eq_some_iff] at hs
    obtain ⟨n, -, rfl⟩ := hs
    rw [navs n] at hne hp
    rw [← initialShown_eq]
    rcases (opened hk (reach_inv h) hp).2 with h | h | h
    · exact h.2
    · exact absurd h.1 hne
    · exact h
  · have init_mem : ∀ (c : Str) (x : YamlDiff), initialShown c x = c ∨ initialShown c x ∈ x.oldStack.map Call.name ∨
        initialShown c x ∈ x.newStack.map Call.name := by
      intro c x
      unfold initialShown
      split
      · rename_i k hk
        exact .inr (.inl (List.mem_map_of_mem (List.mem_of_getLast? hk)))
      · exact .inl rfl
    clear navs
    induction h with
    | start =>
      intro c d f x hp
      have := (page_difference hp).1
      cases this
    | @step s s' e hr hf he ih =>
      have hi := reach_inv hr
      intro c d f x hp hsel
      cases e with
      | nav e =>
        simp only [sessStep, Option.map_eq_some_iff] at he
        obtain ⟨n, -, rfl⟩ := he
        have hn : (renderViewer v defs { s with nav := n }).nav = n := by
          unfold renderViewer
          split
          · split <;> exact (selected_render _ _ _ _ _ _ _).2
          · rfl
        rw [hn] at hp
        rcases (opened hk hi hp).2 with h | h | h
        · rw [h.2] at hsel; cases hsel; exact init_mem c x
        · rw [h.2] at hsel; rw [h.1] at hp; exact ih c d f x hp hsel
        · rw [h] at hsel; cases hsel; exact init_mem c x
      | select g =>
        cases hd : s.difference with
        | none => cases hpg : pageOf v s.nav <;> simp [sessStep, hd, hpg] at he
        | some p =>
          obtain ⟨c', d', x', hpg, -⟩ := hi.diff p hd
          simp only [sessStep, hd, hpg] at he
          split at he
          · rename_i hg
            cases he
            rw [(selected_render _ _ _ _ _ _ _).2] at hp
            rw [hpg] at hp
            cases hp
            rw [(selected_render _ _ _ _ _ _ _).1] at hsel
            cases hsel
            simpa [stackNames] using hg
          · cases he
      | arrive i =>
        have ha := answers_same (Answers.step i he (.refl s'))
        rw [ha.1] at hp
        rw [ha.2] at hsel
        exact ih c d f x hp hsel
      | fail i =>
        simp only [sessStep] at he
        split at he
        · cases he; exact ih c d f x hp hsel
        · cases he

/-- Names of which none begins another one: `a` and `b`. -/
example : KeysDiffer (viewResult (fun _ _ => true)
    [(str! "a", [⟨str! "bc", [], []⟩]), (str! "b", [⟨str! "c", [], []⟩])]) := by
  have key : ∀ c d x, (viewResult (fun _ _ => true)
      [(str! "a", [⟨str! "bc", [], []⟩]), (str! "b", [⟨str! "c", [], []⟩])]).getDiff c d = some x →
      (c = str! "a" ∧ d = str! "bc") ∨ (c = str! "b" ∧ d = str! "c") := by
    intro c d x h
    have e : viewResult (fun _ _ => true)
      [(str! "a", [⟨str! "bc", [], []⟩]), (str! "b", [⟨str! "c", [], []⟩])] =
      ⟨[(str! "a", [(str! "bc", ⟨str! "bc", [], []⟩)]), (str! "b", [(str! "c", ⟨str! "c", [], []⟩)])],
        [(str! "bc", [str! "a"]), (str! "c", [str! "b"])]⟩ := rfl
    rw [e] at h
    by_cases h1 : str! "a" = c
    · subst h1
      by_cases h2 : str! "bc" = d
      · exact .inl ⟨rfl, h2.symm⟩
      · simp [ViewResult.getDiff, Dict.get?, h2] at h
    · by_cases h3 : str! "b" = c
      · subst h3
        by_cases h2 : str! "c" = d
        · exact .inr ⟨rfl, h2.symm⟩
        · simp [ViewResult.getDiff, Dict.get?, h2] at h
      · simp [ViewResult.getDiff, Dict.get?, h1, h3] at h
  intro c d c' d' x x' h h' he
  rcases key _ _ _ h with ⟨rfl, rfl⟩ | ⟨rfl, rfl⟩ <;> rcases key _ _ _ h' with ⟨rfl, rfl⟩ | ⟨rfl, rfl⟩ <;>
    first | exact ⟨rfl, rfl⟩ | (revert he; decide)

end DK
