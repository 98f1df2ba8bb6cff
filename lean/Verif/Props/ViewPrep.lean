import Verif.Spec.ViewPrep
import Verif.Lemmas.Snapshot

/-! Properties C156 and C157: files for the viewer. -/

set_option autoImplicit false

namespace DK
open Spec

private theorem inside_comps {f : Str} {ws : List Str} (hne : ws ≠ []) (h : ∀ w ∈ ws, NormalComp w)
    (e : f = joinChar '/' ws) (dir : List Str) : absComps dir f = dir ++ ws := by
  rw [e, absComps_rel dir ws hne h]

private theorem plain_diff {n : Str} (h : PlainName n) : NormalComp (n ++ str! ".diff") := by
  obtain ⟨hne, hc⟩ := h
  have hl : 6 ≤ (n ++ str! ".diff").length := by
    have : 1 ≤ n.length := by cases n with | nil => exact absurd rfl hne | cons => simp
    simp [String.toList] at *
    omega
  refine ⟨?_, ?_, ?_, ?_⟩
  · intro e; rw [e] at hl; simp at hl
  · intro e; rw [e] at hl; exact absurd hl (by decide)
  · intro e; rw [e] at hl; exact absurd hl (by decide)
  · intro hm
    rw [List.mem_append] at hm
    rcases hm with hm | hm
    · rcases hc _ hm with h1 | h1
      · exact absurd h1 (by decide)
      · exact absurd h1 (by decide)
    · exact absurd hm (by decide)

private theorem diffPath_eq {n : Str} (env : ViewEnv) (h : PlainName n) :
    viewDiffPath env n = env.diffs ++ [n ++ str! ".diff"] := by
  unfold viewDiffPath
  exact inside_comps (ws := [n ++ str! ".diff"]) (by simp) (by simpa using plain_diff h) rfl _

private theorem write_same (fs : FileTree) (p : List Str) (c : Str) : fs.write p c p = some c := if_pos rfl

private theorem write_ne (fs : FileTree) {p x : List Str} (c : Str) (h : x ≠ p) : fs.write p c x = fs x := if_neg h

private theorem data_src (env : ViewEnv) (ws : List Str) : env.data <+: env.src ++ ws :=
  ⟨str! "src" :: ws, by simp [ViewEnv.src]⟩

private theorem data_diffs (env : ViewEnv) (ws : List Str) : env.data <+: env.diffs ++ ws :=
  ⟨str! "diffs" :: ws, by simp [ViewEnv.diffs]⟩

private theorem data_yaml (env : ViewEnv) : env.data <+: env.yaml := ⟨[str! "diffkemp-out.yaml"], rfl⟩

private theorem src_ne_diffs (env : ViewEnv) (a b : List Str) : env.src ++ a ≠ env.diffs ++ b := by
  unfold ViewEnv.src ViewEnv.diffs
  intro h
  rw [List.append_assoc, List.append_assoc] at h
  have := List.append_cancel_left h
  simp at this

private theorem src_ne_yaml (env : ViewEnv) (a : List Str) : env.src ++ a ≠ env.yaml := by
  unfold ViewEnv.src ViewEnv.yaml
  intro h
  rw [List.append_assoc] at h
  have := List.append_cancel_left h
  simp at this

private theorem diffs_ne_yaml (env : ViewEnv) (a : List Str) : env.diffs ++ a ≠ env.yaml := by
  unfold ViewEnv.diffs ViewEnv.yaml
  intro h
  rw [List.append_assoc] at h
  have := List.append_cancel_left h
  simp at this

/-- The diff of a definition, as the code makes it, before blank diffs are dropped. -/
private def RawDiff (env : ViewEnv) (fs : FileTree) (d : Defn) (e1 e2 : Nat) (u : Str) : Prop :=
  ∃ c1 c2 l1 l2 n1 n2, fs (oldFile env d) = some c1 ∧ fs (newFile env d) = some c2 ∧ env.text c1 = some l1 ∧
    env.text c2 = some l2 ∧ d.old.line = some n1 ∧ d.new.line = some n2 ∧
    u = unifiedSyntaxDiff env.tool l1 l2 n1 n2 e1 e2

/-- What holds after some definitions. -/
private structure ViewInv (env : ViewEnv) (fs : FileTree) (ds : List (Str × Defn)) (st : ViewState) : Prop where
  out : ∀ p, ¬ env.data <+: p → st.fs p = fs p
  copied : ∀ f ∈ st.done, InsidePath f ∧ st.fs (absComps env.src f) = fs (absComps env.oldDir f)
  names : st.flags.map Prod.fst = ds.map Prod.fst
  each : ∀ x ∈ ds, x.2.old.file ∈ st.done ∧ ∃ flag, st.flags.lookup x.1 = some flag ∧
    ∀ e1 e2, x.2.old.endLine = some e1 → x.2.new.endLine = some e2 → ∃ u, RawDiff env fs x.2 e1 e2 u ∧
      ((flag = false ∧ (isSpace u = true ∨ u = [])) ∨
       (flag = true ∧ ¬ (isSpace u = true ∨ u = []) ∧ st.fs (viewDiffPath env x.1) = some u))

private theorem copy_step {env : ViewEnv} {fs : FileTree} {ds : List (Str × Defn)} {st : ViewState} {d : Defn}
    (hn : ∀ x ∈ ds, PlainName x.1) (inv : ViewInv env fs ds st) (hi : InsidePath d.old.file) (ha : Available env fs d) :
    ∃ st', viewCopy env d.old.file st = some st' ∧ ViewInv env fs ds st' ∧ d.old.file ∈ st'.done := by
  unfold viewCopy
  by_cases hd : d.old.file ∈ st.done
  · rw [if_pos hd]
    exact ⟨st, rfl, inv, hd⟩
  · rw [if_neg hd]
    obtain ⟨ws, hne, hw, e⟩ := hi
    have es := inside_comps hne hw e env.src
    obtain ⟨⟨c, l, hc, _⟩, _, _, _, ho, _⟩ := ha
    unfold oldFile at hc ho
    rw [if_neg (by rw [es]; intro h; rw [h] at ho; exact ho (data_src env ws))]
    have hc' : st.fs (absComps env.oldDir d.old.file) = some c := by rw [inv.out _ ho, hc]
    refine ⟨{ st with fs := st.fs.write (absComps env.src d.old.file) c, done := d.old.file :: st.done }, ?_, ⟨?_, ?_, ?_, ?_⟩, ?_⟩
    · unfold FileTree.copy; rw [hc']; rfl
    · intro p hp
      dsimp only
      rw [write_ne, inv.out p hp]
      rintro rfl
      rw [es] at hp
      exact hp (data_src env ws)
    · intro f hf
      dsimp only at hf ⊢
      by_cases ef : f = d.old.file
      · subst ef
        exact ⟨⟨ws, hne, hw, e⟩, by rw [write_same, hc]⟩
      · have hf' : f ∈ st.done := by
          rcases List.mem_cons.1 hf with h | h
          · exact absurd h ef
          · exact h
        obtain ⟨⟨ws', hne', hw', e'⟩, h2⟩ := inv.copied f hf'
        refine ⟨⟨ws', hne', hw', e'⟩, ?_⟩
        rw [write_ne, h2]
        rw [es, inside_comps hne' hw' e' env.src]
        intro h
        have := List.append_cancel_left h
        exact ef (by rw [e', e, this])
    · exact inv.names
    · intro x hx
      obtain ⟨h1, flag, h2, h3⟩ := inv.each x hx
      refine ⟨List.mem_cons_of_mem _ h1, flag, h2, ?_⟩
      intro e1 e2 he1 he2
      obtain ⟨u, hu, h⟩ := h3 e1 e2 he1 he2
      refine ⟨u, hu, h.imp id ?_⟩
      rintro ⟨a, b, c'⟩
      refine ⟨a, b, ?_⟩
      dsimp only
      rw [write_ne, c']
      rw [es, diffPath_eq env (hn x hx)]
      exact (src_ne_diffs env _ _).symm
    · simp

private theorem flags_new {flags : List (Str × Bool)} {n : Str} {b : Bool} (h : n ∉ flags.map Prod.fst) :
    (flags ++ [(n, b)]).lookup n = some b := by
  induction flags with
  | nil => simp
  | cons x xs ih =>
    simp only [List.map_cons, List.mem_cons, not_or] at h
    obtain ⟨k, v⟩ := x
    rw [List.cons_append, List.lookup_cons, show (n == k) = false by simpa using h.1]
    exact ih h.2

private theorem flags_old {flags : List (Str × Bool)} {n m : Str} {b c : Bool} (h : flags.lookup m = some c) :
    (flags ++ [(n, b)]).lookup m = some c := by
  induction flags with
  | nil => simp at h
  | cons x xs ih =>
    obtain ⟨k, v⟩ := x
    rw [List.cons_append, List.lookup_cons]
    rw [List.lookup_cons] at h
    cases hk : (m == k) with
    | true => rw [hk] at h; exact h
    | false => rw [hk] at h; exact ih h

private theorem viewDiff_step {env : ViewEnv} {fs : FileTree} {ds : List (Str × Defn)} {st : ViewState} {n : Str} {d : Defn}
    (hn : ∀ x ∈ ds, PlainName x.1) (hp : PlainName n) (hnew : n ∉ ds.map Prod.fst) (inv : ViewInv env fs ds st)
    (hdone : d.old.file ∈ st.done) (ha : Available env fs d) :
    ∃ st', viewDiff env n d st = some st' ∧ ViewInv env fs (ds ++ [(n, d)]) st' := by
  have hnf : n ∉ st.flags.map Prod.fst := by rw [inv.names]; exact hnew
  -- a state in which only a flag is added
  have hflag : (∀ e1 e2, d.old.endLine = some e1 → d.new.endLine = some e2 → ∃ u, RawDiff env fs d e1 e2 u ∧
      (isSpace u = true ∨ u = [])) → ViewInv env fs (ds ++ [(n, d)]) { st with flags := st.flags ++ [(n, false)] } := by
    intro hu
    refine ⟨inv.out, inv.copied, by simp [inv.names], ?_⟩
    intro x hx
    rw [List.mem_append, List.mem_singleton] at hx
    rcases hx with hx | rfl
    · obtain ⟨h1, flag, h2, h3⟩ := inv.each x hx
      exact ⟨h1, flag, flags_old h2, h3⟩
    · refine ⟨hdone, false, flags_new hnf, ?_⟩
      intro e1 e2 h1 h2
      obtain ⟨u, hu1, hu2⟩ := hu e1 e2 h1 h2
      exact ⟨u, hu1, .inl ⟨rfl, hu2⟩⟩
  obtain ⟨⟨c1, l1, hc1, hl1⟩, ⟨c2, l2, hc2, hl2⟩, hn1, hn2, ho1, ho2⟩ := ha
  obtain ⟨n1, hn1⟩ := Option.isSome_iff_exists.1 hn1
  obtain ⟨n2, hn2⟩ := Option.isSome_iff_exists.1 hn2
  unfold viewDiff
  cases h1 : d.old.endLine with
  | none => exact ⟨_, rfl, hflag (by intro e1 e2 he; rw [h1] at he; exact absurd he (by simp))⟩
  | some e1 =>
    cases h2 : d.new.endLine with
    | none => exact ⟨_, rfl, hflag (by intro e1 e2 _ he; rw [h2] at he; exact absurd he (by simp))⟩
    | some e2 =>
      dsimp only
      have ht : viewDiffText env st.fs d e1 e2 = some (unifiedSyntaxDiff env.tool l1 l2 n1 n2 e1 e2) := by
        unfold viewDiffText viewLines
        have a1 : st.fs (absComps env.oldDir d.old.file) = some c1 := (inv.out _ ho1).trans hc1
        have a2 : st.fs (absComps env.newDir d.new.file) = some c2 := (inv.out _ ho2).trans hc2
        rw [a1, a2, Option.bind_some, Option.bind_some, hl1, hl2, hn1, hn2]
      rw [ht, Option.map_some]
      have hraw : RawDiff env fs d e1 e2 (unifiedSyntaxDiff env.tool l1 l2 n1 n2 e1 e2) :=
        ⟨c1, c2, l1, l2, n1, n2, hc1, hc2, hl1, hl2, hn1, hn2, rfl⟩
      generalize unifiedSyntaxDiff env.tool l1 l2 n1 n2 e1 e2 = u at hraw
      unfold viewStore
      by_cases hb : isSpace u = true ∨ u = []
      · rw [if_pos hb]
        refine ⟨_, rfl, hflag ?_⟩
        intro e1' e2' h1' h2'
        rw [h1] at h1'; rw [h2] at h2'
        cases h1'; cases h2'
        exact ⟨u, hraw, hb⟩
      · rw [if_neg hb]
        refine ⟨_, rfl, ⟨?_, ?_, by simp [inv.names], ?_⟩⟩
        · intro p hp'
          dsimp only
          rw [write_ne, inv.out p hp']
          rintro rfl
          rw [diffPath_eq env hp] at hp'
          exact hp' (data_diffs env _)
        · intro f hf
          obtain ⟨⟨ws', hne', hw', e'⟩, h2⟩ := inv.copied f hf
          refine ⟨⟨ws', hne', hw', e'⟩, ?_⟩
          dsimp only
          rw [write_ne, h2]
          rw [diffPath_eq env hp, inside_comps hne' hw' e' env.src]
          exact src_ne_diffs env _ _
        · intro x hx
          rw [List.mem_append, List.mem_singleton] at hx
          rcases hx with hx | rfl
          · obtain ⟨h1', flag, h2', h3⟩ := inv.each x hx
            refine ⟨h1', flag, flags_old h2', ?_⟩
            intro e1' e2' he1 he2
            obtain ⟨v, hv, h⟩ := h3 e1' e2' he1 he2
            refine ⟨v, hv, h.imp id ?_⟩
            rintro ⟨a, b, c'⟩
            refine ⟨a, b, ?_⟩
            dsimp only
            rw [write_ne, c']
            rw [diffPath_eq env hp, diffPath_eq env (hn x hx)]
            intro h
            have := List.append_cancel_left h
            simp only [List.cons.injEq, and_true] at this
            have : x.1 = n := List.append_cancel_right this
            exact hnew (by rw [← this]; exact List.mem_map_of_mem hx)
          · refine ⟨hdone, true, flags_new hnf, ?_⟩
            intro e1' e2' h1' h2'
            dsimp only at h1' h2'
            rw [h1] at h1'; rw [h2] at h2'
            cases h1'; cases h2'
            exact ⟨u, hraw, .inr ⟨rfl, hb, write_same _ _ _⟩⟩

private theorem viewLoop_inv {env : ViewEnv} {fs : FileTree} : ∀ (rest ds : List (Str × Defn)) (st : ViewState),
    (∀ x ∈ ds ++ rest, PlainName x.1) → ((ds ++ rest).map Prod.fst).Nodup →
    (∀ x ∈ rest, InsidePath x.2.old.file ∧ Available env fs x.2) → ViewInv env fs ds st →
    ∃ st', viewLoop env rest st = some st' ∧ ViewInv env fs (ds ++ rest) st' := by
  intro rest
  induction rest with
  | nil => intro ds st _ _ _ inv; exact ⟨st, rfl, by simpa using inv⟩
  | cons x rest ih =>
    obtain ⟨n, d⟩ := x
    intro ds st hn hnd hall inv
    obtain ⟨hi, ha⟩ := hall (n, d) (by simp)
    have hn' : ∀ y ∈ ds, PlainName y.1 := fun y hy => hn y (List.mem_append_left _ hy)
    obtain ⟨st1, h1, inv1, hd⟩ := copy_step hn' inv hi ha
    have hnew : n ∉ ds.map Prod.fst := by
      rw [List.map_append, List.nodup_append] at hnd
      intro hm
      exact hnd.2.2 n hm n (by simp) rfl
    obtain ⟨st2, h2, inv2⟩ := viewDiff_step hn' (hn (n, d) (by simp)) hnew inv1 hd ha
    obtain ⟨st3, h3, inv3⟩ := ih (ds ++ [(n, d)]) st2 (by simpa using hn) (by simpa using hnd)
      (fun y hy => hall y (List.mem_cons_of_mem _ hy)) inv2
    refine ⟨st3, ?_, by simpa using inv3⟩
    rw [viewLoop, h1, Option.bind_some, h2, Option.bind_some, h3]

/-! ### Reading -/

private theorem unquote_safe : ∀ {s : Str}, '%' ∉ s → unquoteFrom 0 s = s := by
  intro s
  induction s with
  | nil => intro _; rfl
  | cons c cs ih =>
    intro h
    simp only [List.mem_cons, not_or] at h
    rw [unquoteFrom]
    · rw [ih h.2]
    · intro a b tl hc _
      exact h.1 hc.symm

private theorem urlPath_safe {s : Str} (h1 : '?' ∉ s) (h2 : '#' ∉ s) : urlPath s = s := by
  unfold urlPath
  induction s with
  | nil => rfl
  | cons c cs ih =>
    simp only [List.mem_cons, not_or] at h1 h2
    rw [List.takeWhile_cons, if_pos (by simpa using ⟨Ne.symm h1.1, Ne.symm h2.1⟩), ih h1.2 h2.2]

private theorem fetch_safe {env : ViewEnv} {fs : FileTree} {dir : Str} {f : Str} {ws : List Str}
    (hdir : NormalComp dir) (hs : UrlSafe dir) (hne : ws ≠ []) (hw : ∀ w ∈ ws, NormalComp w) (e : f = joinChar '/' ws)
    (hf : UrlSafe f) : viewFetch env fs (dir ++ '/' :: f) = fs (env.data ++ (dir :: ws)) := by
  unfold viewFetch
  have e1 : str! "data/" ++ (dir ++ '/' :: f) = joinChar '/' (str! "data" :: dir :: ws) := by
    cases ws with
    | nil => exact absurd rfl hne
    | cons w ws => rw [e, joinChar, joinChar]; rfl
  have hu : ∀ c : Char, c ∉ str! "data/" → c ≠ '/' → c ∉ dir → c ∉ f → c ∉ str! "data/" ++ (dir ++ '/' :: f) := by
    intro c h1 h2 h3 h4 hm
    rcases List.mem_append.1 hm with hm | hm
    · exact h1 hm
    · rcases List.mem_append.1 hm with hm | hm
      · exact h3 hm
      · exact (List.mem_cons.1 hm).elim h2 h4
  rw [urlPath_safe (hu _ (by decide) (by decide) hs.1 hf.1) (hu _ (by decide) (by decide) hs.2.1 hf.2.1),
    unquote_safe (hu _ (by decide) (by decide) hs.2.2 hf.2.2), e1,
    absComps_rel [] _ (by simp) (by
      intro w hw'
      simp only [List.mem_cons] at hw'
      rcases hw' with rfl | rfl | h
      · decide
      · exact hdir
      · exact hw w h)]
  simp [ViewEnv.data]

private theorem plain_safe {n : Str} (h : PlainName n) : UrlSafe (n ++ str! ".diff") := by
  refine ⟨?_, ?_, ?_⟩ <;>
  · intro hm
    rw [List.mem_append] at hm
    rcases hm with hm | hm
    · rcases h.2 _ hm with h1 | h1 <;> exact absurd h1 (by decide)
    · exact absurd hm (by decide)

private theorem blank_iff (u : Str) : (isSpace u = true ∨ u = []) ↔ ∀ c ∈ u, pySpace c = true := by
  unfold isSpace
  cases u with
  | nil => simp
  | cons c cs => simp

/-! ### C156 -/

/-- **C156** as stated: while the viewer runs, it shows each definition from the source file in the old snapshot and the
diff of the two versions. -/
def C156_statement : Prop :=
  ∀ (env : ViewEnv) (fs : FileTree) (defs : List (Str × Defn)), (∀ x ∈ defs, PlainName x.1 ∧ Available env fs x.2) →
    (defs.map Prod.fst).Nodup →
    ∃ fs' flags, viewPrepare env defs fs = some (fs', flags) ∧
      ∀ x ∈ defs, ShowsDefinition env fs fs' flags x.1 x.2

/-- **C156 (partial)** Proved for source files inside of the snapshot whose paths have no special characters of addresses.
Missing: other files (the claim fails for them). -/
theorem C156_shown_partial (env : ViewEnv) (fs : FileTree) (defs : List (Str × Defn))
    (h : ∀ x ∈ defs, PlainName x.1 ∧ Available env fs x.2) (hnd : (defs.map Prod.fst).Nodup)
    (hin : ∀ x ∈ defs, InsidePath x.2.old.file ∧ UrlSafe x.2.old.file) :
    ∃ fs' flags, viewPrepare env defs fs = some (fs', flags) ∧
      ∀ x ∈ defs, ShowsDefinition env fs fs' flags x.1 x.2 := by
  obtain ⟨st, h1, inv⟩ := viewLoop_inv (env := env) (fs := fs) defs [] ⟨fs, [], []⟩ (by simpa using fun a b hb => (h (a, b) hb).1)
    (by simpa using hnd) (fun x hx => ⟨(hin x hx).1, (h x hx).2⟩)
    ⟨fun _ _ => rfl, fun _ hf => absurd hf (by simp), rfl, fun _ hx => absurd hx (by simp)⟩
  rw [List.nil_append] at inv
  refine ⟨st.fs.write env.yaml (env.dump st.flags), st.flags, by unfold viewPrepare; rw [h1]; rfl, ?_⟩
  intro x hx
  obtain ⟨hdone, flag, hl, hu⟩ := inv.each x hx
  refine ⟨flag, hl, ?_⟩
  intro e1 e2 he1 he2
  obtain ⟨u, hraw, hcase⟩ := hu e1 e2 he1 he2
  obtain ⟨⟨ws, hne, hw, e⟩, hsafe⟩ := hin x hx
  have hsrc : viewFetch env (st.fs.write env.yaml (env.dump st.flags)) (str! "src/" ++ x.2.old.file) =
      fs (oldFile env x.2) := by
    have := fetch_safe (env := env) (fs := st.fs.write env.yaml (env.dump st.flags)) (dir := str! "src") (by decide)
      ⟨by decide, by decide, by decide⟩ hne hw e hsafe
    refine this.trans ?_
    have e2 : env.data ++ (str! "src" :: ws) = env.src ++ ws := by simp [ViewEnv.src]
    rw [e2, write_ne _ _ (src_ne_yaml env ws), ← inside_comps hne hw e env.src]
    exact (inv.copied _ hdone).2
  have hshown : viewShown env (st.fs.write env.yaml (env.dump st.flags)) x.1 x.2 flag =
      some (fs (oldFile env x.2), if flag then st.fs (viewDiffPath env x.1) else some []) := by
    unfold viewShown
    rw [he1, he2]
    dsimp only
    rw [hsrc]
    congr 2
    cases flag with
    | false => rfl
    | true =>
      simp only [if_true]
      have hp := (h x hx).1
      have := fetch_safe (env := env) (fs := st.fs.write env.yaml (env.dump st.flags)) (dir := str! "diffs")
        (f := x.1 ++ str! ".diff") (ws := [x.1 ++ str! ".diff"]) (by decide)
        ⟨by decide, by decide, by decide⟩ (by simp) (by simpa using plain_diff hp) rfl (plain_safe hp)
      rw [show str! "diffs/" ++ x.1 ++ str! ".diff" = str! "diffs" ++ '/' :: (x.1 ++ str! ".diff") from
        List.append_assoc _ _ _, this]
      have e2 : env.data ++ [str! "diffs", x.1 ++ str! ".diff"] = env.diffs ++ [x.1 ++ str! ".diff"] := by
        simp [ViewEnv.diffs]
      rw [e2, write_ne _ _ (diffs_ne_yaml env _), diffPath_eq env hp]
  obtain ⟨c1, c2, l1, l2, n1, n2, q1, q2, q3, q4, q5, q6, rfl⟩ := hraw
  rcases hcase with ⟨rfl, hb⟩ | ⟨rfl, hb, hfs⟩
  · refine ⟨[], ⟨c1, c2, l1, l2, n1, n2, q1, q2, q3, q4, q5, q6, fun _ => rfl, ?_⟩, by rw [hshown]; rfl⟩
    rintro ⟨c, hc, hcs⟩
    rw [(blank_iff _).1 hb c hc] at hcs
    exact absurd hcs (by simp)
  · refine ⟨_, ⟨c1, c2, l1, l2, n1, n2, q1, q2, q3, q4, q5, q6, ?_, fun _ => rfl⟩, by rw [hshown, if_pos rfl, hfs]⟩
    intro hall
    exact absurd ((blank_iff _).2 hall) hb

/-! A session of the viewer: functions `f` and `g` of one file, the second one is equal in both versions. -/

private def demoText (s : Str) : Option (List Str) := some ((splitChar '\n' s).map (· ++ ['\n']))

private def demoTool (a b : List Str) : Str := if a = b then [] else str! "@@ -1 +1 @@\n"

private def demoView : ViewEnv :=
  ⟨[str! "v", str! "build"], [str! "a", str! "b", str! "old"], [str! "a", str! "b", str! "new"], demoText, demoTool, fun _ => []⟩

private def demoDefn (file : Str) (a b : Nat) : Defn := ⟨.function, ⟨some a, file, some b, none⟩, ⟨some a, file, some b, none⟩⟩

private def demoFiles : FileTree := fun p =>
  if p = [str! "a", str! "b", str! "old", str! "d", str! "m.c"] then some (str! "int f()\n{\n return 1;\n}\nint g()\n{\n}")
  else if p = [str! "a", str! "b", str! "new", str! "d", str! "m.c"] then some (str! "int f()\n{\n return 2;\n}\nint g()\n{\n}")
  else if p = [str! "x.h"] then some (str! "int h()\n{\n}")
  else if p = [str! "a", str! "b", str! "old", str! "c#.c"] then some (str! "int h()\n{\n}")
  else if p = [str! "a", str! "b", str! "new", str! "c#.c"] then some (str! "int h()\n{\n}")
  else if p = [str! "v", str! "x.h"] then some (str! "own file")
  else none

private def demoDefs : List (Str × Defn) := [(str! "f", demoDefn (str! "d/m.c") 1 4), (str! "g", demoDefn (str! "d/m.c") 5 7)]

private def demoOutside : List (Str × Defn) := [(str! "h", demoDefn (str! "../../../x.h") 1 3)]

private def demoHash : List (Str × Defn) := [(str! "h", demoDefn (str! "c#.c") 1 3)]

private theorem demo_plain (c : Char) (h : c.isAlphanum = true) : PlainName [c] :=
  ⟨by simp, by intro x hx; simp only [List.mem_singleton] at hx; subst hx; exact .inl h⟩

private theorem demo_available (file : Str) (a b : Nat)
    (h1 : (demoFiles (absComps demoView.oldDir file)).isSome) (h2 : (demoFiles (absComps demoView.newDir file)).isSome)
    (h3 : ¬ demoView.data <+: absComps demoView.oldDir file) (h4 : ¬ demoView.data <+: absComps demoView.newDir file) :
    Available demoView demoFiles (demoDefn file a b) := by
  obtain ⟨c1, h1⟩ := Option.isSome_iff_exists.1 h1
  obtain ⟨c2, h2⟩ := Option.isSome_iff_exists.1 h2
  exact ⟨⟨c1, _, h1, rfl⟩, ⟨c2, _, h2, rfl⟩, rfl, rfl, h3, h4⟩

private theorem demo_fails {defs : List (Str × Defn)} {file : Str} {a b : Nat} (h : C156_statement)
    (e : defs = [(str! "h", demoDefn file a b)]) (ha : Available demoView demoFiles (demoDefn file a b))
    (hs : ∀ flag, ((viewPrepare demoView defs demoFiles).bind fun r =>
      (viewShown demoView r.1 (str! "h") (demoDefn file a b) flag).bind Prod.fst) = none) : False := by
  subst e
  obtain ⟨fs', flags, hp, hall⟩ := h demoView demoFiles [(str! "h", demoDefn file a b)] (by
    intro x hx
    simp only [List.mem_singleton] at hx
    subst hx
    exact ⟨demo_plain 'h' (by decide), ha⟩) (by simp)
  obtain ⟨flag, _, hshow⟩ := hall _ (List.mem_singleton.2 rfl)
  obtain ⟨t, _, ht⟩ := hshow b b rfl rfl
  have := hs flag
  rw [hp, Option.bind_some] at this
  dsimp only at this ht
  rw [ht, Option.bind_some] at this
  obtain ⟨⟨c, _, hc, _⟩, _⟩ := ha
  rw [hc] at this
  exact absurd this (by simp)

/-- **C156 (violated)** The source of a definition outside of the snapshot is copied to a place that the viewer cannot
reach. -/
theorem C156_fails : ¬ C156_statement := fun h =>
  demo_fails (defs := demoOutside) h rfl
    (demo_available _ 1 3 (by decide) (by decide) (by decide) (by decide))
    (by intro flag; cases flag <;> decide)

/-- **C156 (violated)** A source file with a hash in its name is not found by the viewer. -/
theorem C156_fails_hash : ¬ C156_statement := fun h =>
  demo_fails (defs := demoHash) h rfl
    (demo_available _ 1 3 (by decide) (by decide) (by decide) (by decide))
    (by intro flag; cases flag <;> decide)

/-- A digit of an encoded character. -/
def Spec.percentDigit (n : Nat) : Char := "0123456789ABCDEF".toList.getD n '0'

/-- The encoding of characters of one byte in addresses, here for all characters. -/
def Spec.percentEncode (s : Str) : Str := s.flatMap fun c => ['%', percentDigit (c.toNat / 16), percentDigit (c.toNat % 16)]

private theorem hexVal_digit : ∀ n : Fin 16, hexVal (percentDigit n) = some n.1 := by decide

private theorem unquote_encoded : ∀ {s : Str}, (∀ c ∈ s, c.toNat < 256) → unquoteFrom 0 (percentEncode s) = s := by
  intro s
  induction s with
  | nil => intro _; rfl
  | cons c s ih =>
    intro h
    have hc := h c List.mem_cons_self
    have h1 := hexVal_digit ⟨c.toNat / 16, by omega⟩
    have h2 := hexVal_digit ⟨c.toNat % 16, by omega⟩
    dsimp only at h1 h2
    have e : percentEncode (c :: s) = '%' :: percentDigit (c.toNat / 16) :: percentDigit (c.toNat % 16) :: percentEncode s := rfl
    rw [e, unquoteFrom]
    simp only [h1, h2]
    rw [unquoteFrom, unquoteFrom, ih (fun d hd => h d (List.mem_cons_of_mem _ hd)),
      show 16 * (c.toNat / 16) + c.toNat % 16 = c.toNat by omega, Char.ofNat_toNat]

private theorem percentDigit_plain : ∀ n : Fin 16, percentDigit n ≠ '?' ∧ percentDigit n ≠ '#' := by decide

/-- **C156 (partial)** Files whose names have special characters are served, too, if the address is encoded: what the viewer
requests then is the file with this very path. (The viewer does not encode, see `C156_fails_hash`.) -/
theorem C156_encoded_partial (env : ViewEnv) (fs : FileTree) (file : Str) (h : ∀ c ∈ file, c.toNat < 256) :
    viewFetch env fs (percentEncode file) = fs (env.pub ++ absComps [] (str! "data/" ++ file)) := by
  unfold viewFetch
  have hp : ∀ c ∈ percentEncode file, c ≠ '?' ∧ c ≠ '#' := by
    intro c hc
    unfold percentEncode at hc
    obtain ⟨d, hd, hc⟩ := List.mem_flatMap.1 hc
    have hdd := h d hd
    simp only [List.mem_cons, List.not_mem_nil, or_false] at hc
    rcases hc with rfl | rfl | rfl
    · decide
    · exact percentDigit_plain ⟨d.toNat / 16, by omega⟩
    · exact percentDigit_plain ⟨d.toNat % 16, by omega⟩
  have e1 : urlPath (str! "data/" ++ percentEncode file) = str! "data/" ++ percentEncode file := by
    refine urlPath_safe (fun hc => ?_) (fun hc => ?_) <;> rcases List.mem_append.1 hc with hc | hc
    · exact absurd hc (by decide)
    · exact (hp _ hc).1 rfl
    · exact absurd hc (by decide)
    · exact (hp _ hc).2 rfl
  have e2 : unquoteFrom 0 (str! "data/" ++ percentEncode file) = str! "data/" ++ unquoteFrom 0 (percentEncode file) := rfl
  rw [e1, e2, unquote_encoded h]

-- a file with a hash in its name is found by its encoded address
example : viewFetch demoView (fun p => if p = demoView.pub ++ [str! "data", str! "a#.c"] then some (str! "x") else none)
    (percentEncode (str! "a#.c")) = some (str! "x") := by
  rw [C156_encoded_partial _ _ _ (by decide)]
  decide

private theorem demo_inside : InsidePath (str! "d/m.c") := ⟨[str! "d", str! "m.c"], by decide, by decide, by decide⟩

-- the hypotheses hold for a file with two functions, of which one differs
example : (∀ x ∈ demoDefs, PlainName x.1 ∧ Available demoView demoFiles x.2) ∧ (demoDefs.map Prod.fst).Nodup ∧
    (∀ x ∈ demoDefs, InsidePath x.2.old.file ∧ UrlSafe x.2.old.file) ∧
    (viewPrepare demoView demoDefs demoFiles).map Prod.snd = some [(str! "f", true), (str! "g", false)] := by
  refine ⟨?_, by decide, ?_, by decide⟩
  · intro x hx
    simp only [demoDefs, List.mem_cons, List.not_mem_nil, or_false] at hx
    rcases hx with rfl | rfl
    · exact ⟨demo_plain 'f' (by decide), demo_available _ 1 4 (by decide) (by decide) (by decide) (by decide)⟩
    · exact ⟨demo_plain 'g' (by decide), demo_available _ 5 7 (by decide) (by decide) (by decide) (by decide)⟩
  · intro x hx
    simp only [demoDefs, List.mem_cons, List.not_mem_nil, or_false] at hx
    rcases hx with rfl | rfl <;> exact ⟨demo_inside, by decide, by decide, by decide⟩

/-! ### C157 -/

/-- **C157** as stated: a session of the viewer changes no file outside of its data directory, and none of the files it
made is left. -/
def C157_statement : Prop :=
  ∀ (env : ViewEnv) (fs : FileTree) (defs : List (Str × Defn)) (fs' : FileTree) (flags : List (Str × Bool)),
    (∀ x ∈ defs, PlainName x.1) → viewPrepare env defs fs = some (fs', flags) →
    ∀ p, viewClean env fs' p ≠ fs p → env.data <+: p ∧ viewClean env fs' p = none

/-- **C157 (violated)** The source of a definition outside of the snapshot is written over another file. -/
theorem C157_fails : ¬ C157_statement ∧
    ((viewPrepare demoView demoOutside demoFiles).bind fun r => viewClean demoView r.1 [str! "v", str! "x.h"]) =
      some (str! "int h()\n{\n}") ∧ demoFiles [str! "v", str! "x.h"] = some (str! "own file") := by
  have key : ((viewPrepare demoView demoOutside demoFiles).bind fun r => viewClean demoView r.1 [str! "v", str! "x.h"]) =
      some (str! "int h()\n{\n}") := by decide
  refine ⟨?_, key, by decide⟩
  intro h
  cases hp : viewPrepare demoView demoOutside demoFiles with
  | none => rw [hp] at key; exact absurd key (by simp)
  | some r =>
    obtain ⟨fs', flags⟩ := r
    rw [hp, Option.bind_some] at key
    have := h demoView demoFiles demoOutside fs' flags (by
      intro x hx
      simp only [demoOutside, List.mem_singleton] at hx
      subst hx
      exact demo_plain 'h' (by decide)) hp [str! "v", str! "x.h"] (by rw [key]; decide)
    exact absurd this.1 (by decide)

private theorem copy_writes {env : ViewEnv} {f : Str} {st st' : ViewState} (hi : InsidePath f)
    (h : viewCopy env f st = some st') (p : List Str) (hp : st'.fs p ≠ st.fs p) : env.src <+: p := by
  unfold viewCopy at h
  split at h
  · cases h; exact absurd rfl hp
  · split at h
    · exact absurd h (by simp)
    · unfold FileTree.copy at h
      cases hs : st.fs (absComps env.oldDir f) with
      | none => rw [hs] at h; exact absurd h (by simp)
      | some c =>
        rw [hs] at h
        simp only [Option.map_some, Option.some.injEq] at h
        subst h
        obtain ⟨ws, hne, hw, e⟩ := hi
        by_cases hpe : p = absComps env.src f
        · rw [hpe, inside_comps hne hw e env.src]; exact List.prefix_append _ _
        · exact absurd (write_ne _ _ hpe) hp

private theorem diff_writes {env : ViewEnv} {n : Str} {d : Defn} {st st' : ViewState} (hn : PlainName n)
    (h : viewDiff env n d st = some st') (p : List Str) (hp : st'.fs p ≠ st.fs p) : env.diffs <+: p := by
  unfold viewDiff at h
  split at h
  · rename_i e1 e2 _ _
    cases ht : viewDiffText env st.fs d e1 e2 with
    | none => rw [ht] at h; exact absurd h (by simp)
    | some t =>
      rw [ht, Option.map_some] at h
      cases h
      unfold viewStore at hp
      split at hp
      · exact absurd rfl hp
      · by_cases hpe : p = viewDiffPath env n
        · rw [hpe, diffPath_eq env hn]; exact List.prefix_append _ _
        · exact absurd (write_ne _ _ hpe) hp
  · cases h; exact absurd rfl hp

private theorem loop_writes {env : ViewEnv} : ∀ (defs : List (Str × Defn)) (st st' : ViewState),
    (∀ x ∈ defs, PlainName x.1 ∧ InsidePath x.2.old.file) → viewLoop env defs st = some st' →
    ∀ p, st'.fs p ≠ st.fs p → env.src <+: p ∨ env.diffs <+: p := by
  intro defs
  induction defs with
  | nil => intro st st' _ h p hp; cases h; exact absurd rfl hp
  | cons x defs ih =>
    obtain ⟨n, d⟩ := x
    intro st st' hall h p hp
    rw [viewLoop, Option.bind_eq_some_iff] at h
    obtain ⟨st2, h, h3⟩ := h
    rw [Option.bind_eq_some_iff] at h
    obtain ⟨st1, h1, h2⟩ := h
    obtain ⟨hn, hi⟩ := hall (n, d) (by simp)
    by_cases e1 : st1.fs p = st.fs p
    · by_cases e2 : st2.fs p = st1.fs p
      · exact ih st2 st' (fun y hy => hall y (List.mem_cons_of_mem _ hy)) h3 p (by rw [e2, e1]; exact hp)
      · exact .inr (diff_writes hn h2 p e2)
    · exact .inl (copy_writes hi h1 p e1)

/-- **C157 (partial)** Proved if all source files are inside of the snapshot. Missing: other files (the claim fails for
them), and sessions that end with an exception. -/
theorem C157_clean_partial (env : ViewEnv) (fs : FileTree) (defs : List (Str × Defn)) (fs' : FileTree)
    (flags : List (Str × Bool)) (hn : ∀ x ∈ defs, PlainName x.1 ∧ InsidePath x.2.old.file)
    (h : viewPrepare env defs fs = some (fs', flags)) (p : List Str) (hp : viewClean env fs' p ≠ fs p) :
    env.data <+: p ∧ viewClean env fs' p = none := by
  unfold viewPrepare at h
  cases hl : viewLoop env defs ⟨fs, [], []⟩ with
  | none => rw [hl] at h; exact absurd h (by simp)
  | some st =>
    rw [hl] at h
    simp only [Option.map_some, Option.some.injEq, Prod.mk.injEq] at h
    obtain ⟨rfl, rfl⟩ := h
    have hin : env.src <+: p ∨ env.diffs <+: p ∨ p = env.yaml := by
      by_cases hy : p = env.yaml
      · exact .inr (.inr hy)
      · by_cases hc : env.src <+: p ∨ env.diffs <+: p ∨ p = env.yaml
        · exact hc
        · unfold viewClean at hp
          rw [if_neg hc, write_ne _ _ hy] at hp
          exact (loop_writes defs _ st hn hl p hp).elim .inl (fun x => .inr (.inl x))
    refine ⟨?_, by unfold viewClean; rw [if_pos hin]⟩
    rcases hin with h | h | h
    · exact ((data_src env []).trans (by simpa using h))
    · exact ((data_diffs env []).trans (by simpa using h))
    · rw [h]; exact data_yaml env

example : (∀ x ∈ demoDefs, PlainName x.1 ∧ InsidePath x.2.old.file) ∧
    (viewPrepare demoView demoDefs demoFiles).isSome := by
  refine ⟨?_, by decide⟩
  intro x hx
  simp only [demoDefs, List.mem_cons, List.not_mem_nil, or_false] at hx
  rcases hx with rfl | rfl
  · exact ⟨demo_plain 'f' (by decide), demo_inside⟩
  · exact ⟨demo_plain 'g' (by decide), demo_inside⟩

end DK
