import Verif.Model.Cache
import Verif.Lemmas.Dict

set_option autoImplicit false

namespace DK

/-- The source file pair of a vertex. -/
def Vertex.filesKey (v : Vertex) : FilesKey := (v.files .left, v.files .right)

/-- All (key, vertex) entries of a map from file pairs to vertices. -/
def entries (m : Dict FilesKey (List Vid)) : List (FilesKey × Vid) := m.flatMap (fun kv => kv.2.map (fun v => (kv.1, v)))

theorem entries_set (m : Dict FilesKey (List Vid)) (k : FilesKey) (v : Vid) :
    (entries (m.set k (((m.get? k).getD []) ++ [v]))).Perm (entries m ++ [(k, v)]) := by
  induction m with
  | nil => simp [Dict.set, Dict.get?, entries]
  | cons x m ih =>
    obtain ⟨k', l⟩ := x
    unfold Dict.set Dict.get?
    by_cases hk : k' = k
    · subst hk
      simp only [if_true, entries, List.flatMap_cons, Option.getD_some, List.map_append, List.map_cons, List.map_nil]
      rw [List.append_assoc, List.append_assoc]
      exact List.Perm.append_left _ (List.perm_append_comm)
    · simp only [if_neg hk]
      simp only [entries, List.flatMap_cons, List.append_assoc] at ih ⊢
      exact List.Perm.append_left _ ih

theorem entries_group (h : Heap) (vs : List Vid) : ∀ m : Dict FilesKey (List Vid),
    (entries (groupByFiles h vs m)).Perm
      (entries m ++ (vs.filter (fun v => (h v).cachable)).map (fun v => ((h v).filesKey, v))) := by
  induction vs with
  | nil => intro m; simp [groupByFiles]
  | cons v vs ih =>
    intro m
    unfold groupByFiles
    by_cases hc : (h v).cachable = true
    · rw [if_pos hc]
      refine (ih _).trans ?_
      rw [List.filter_cons, if_pos hc, List.map_cons]
      refine ((entries_set m _ v).append_right _).trans ?_
      rw [List.append_assoc]
      exact List.Perm.refl _
    · rw [if_neg hc, List.filter_cons, if_neg hc]
      exact ih m

/-- The entries of a write log for one file. -/
def logText (log : List (Str × (Str × Str))) (F : Str) : Str :=
  (log.filter (fun e => decide (e.1 = F))).flatMap (fun e => cacheLine e.2)

theorem logText_append (a b : List (Str × (Str × Str))) (F : Str) : logText (a ++ b) F = logText a F ++ logText b F := by
  simp [logText]

theorem addPairs_text (fs : Dict Str Str) (f : Str) (ps : List (Str × Str)) (F : Str) :
    ((addFunctionPairs fs f ps).get? F).getD [] =
      ((fs.get? F).getD []) ++ logText (ps.map (fun p => (f, p))) F := by
  unfold addFunctionPairs
  rw [Dict.get?_set]
  by_cases hF : f = F
  · subst hF
    simp [logText, List.filter_map, List.flatMap_map, Function.comp_def]
  · rw [if_neg (by first | exact hF | exact fun hh => hF hh.symm)]
    simp [logText]
    rintro a a1 b x x1 _ rfl _ _ hh
    exact absurd hh hF

/-- The cache map only contains what `CacheFile` computes. -/
def Cache.Consistent (c : Cache) : Prop :=
  ∀ k f, c.cacheMap.get? k = some f → cacheFileName c.directory c.cwd k = .ok f

/-- The name of the cache file of a source file pair (arbitrary if there is none). -/
def cacheName (directory : Str) (cwd : List Str) (k : FilesKey) : Str :=
  match cacheFileName directory cwd k with
  | .ok f => f
  | .error _ => []

theorem updateFiles_spec (h : Heap) : ∀ (m : Dict FilesKey (List Vid)) (c c' : Cache), c.Consistent →
    updateFiles h c m = (c', .ok ()) →
    c'.Consistent ∧ c'.directory = c.directory ∧ c'.cwd = c.cwd ∧
    (∀ k ∈ m.keys, cacheFileName c.directory c.cwd k = .ok (cacheName c.directory c.cwd k)) ∧
      ∀ F, (c'.fs.get? F).getD [] = ((c.fs.get? F).getD []) ++
        logText ((entries m).map (fun e => (cacheName c.directory c.cwd e.1, (h e.2).namePair))) F := by
  intro m
  induction m with
  | nil =>
    intro c c' hc he
    simp only [updateFiles, Prod.mk.injEq, and_true] at he
    subst he
    exact ⟨hc, rfl, rfl, by simp [Dict.keys], by simp [entries, logText]⟩
  | cons x m ih =>
    obtain ⟨k, vs⟩ := x
    intro c c' hc he
    have key : ∀ (c1 : Cache) (f : Str), updateFiles h c1 m = (c', .ok ()) → c1.Consistent →
        c1.directory = c.directory → c1.cwd = c.cwd →
        c1.fs = addFunctionPairs c.fs f (vs.map (fun v => (h v).namePair)) →
        cacheFileName c.directory c.cwd k = .ok f →
        c'.Consistent ∧ c'.directory = c.directory ∧ c'.cwd = c.cwd ∧
        (∀ k' ∈ Dict.keys ((k, vs) :: m), cacheFileName c.directory c.cwd k' = .ok (cacheName c.directory c.cwd k')) ∧
          ∀ F, (c'.fs.get? F).getD [] = ((c.fs.get? F).getD []) ++
            logText ((entries ((k, vs) :: m)).map (fun e => (cacheName c.directory c.cwd e.1, (h e.2).namePair))) F := by
      intro c1 f hu h1 hd hw hfs hf
      obtain ⟨a, b, b', hn, ht⟩ := ih c1 c' h1 hu
      rw [hd, hw] at hn ht
      have hnk : cacheName c.directory c.cwd k = f := by unfold cacheName; rw [hf]
      refine ⟨a, b.trans hd, b'.trans hw, ?_, ?_⟩
      · intro k' hk'
        simp only [Dict.keys, List.map_cons, List.mem_cons] at hk'
        rcases hk' with rfl | hk'
        · rw [hnk]; exact hf
        · exact hn k' hk'
      · intro F
        rw [ht F, hfs, addPairs_text, List.append_assoc, ← logText_append]
        congr 2
        simp [entries, hnk, Function.comp_def]
    unfold updateFiles at he
    cases hg : c.cacheMap.get? k with
    | some f =>
      rw [hg] at he
      simp only at he
      exact key _ f he (by intro k' f' hh; exact hc k' f' hh) rfl rfl rfl (hc k f hg)
    | none =>
      rw [hg] at he
      simp only at he
      cases hf : cacheFileName c.directory c.cwd k with
      | error x => rw [hf] at he; simp at he
      | ok f =>
        rw [hf] at he
        simp only at he
        refine key _ f he ?_ rfl rfl rfl hf
        intro k' f' hh
        simp only at hh ⊢
        rw [Dict.get?_set] at hh
        split at hh
        · next hkk => subst hkk; cases hh; exact hf
        · exact hc k' f' hh

/-- Whatever an update does, also when it fails: the lines added are lines of entries of the map. -/
theorem updateFiles_any (h : Heap) : ∀ (m : Dict FilesKey (List Vid)) (c : Cache), c.Consistent →
    (updateFiles h c m).1.Consistent ∧ (updateFiles h c m).1.directory = c.directory ∧ (updateFiles h c m).1.cwd = c.cwd ∧
    ∃ es : List (FilesKey × Vid), (∀ e ∈ es, e ∈ entries m ∧ ∃ F, cacheFileName c.directory c.cwd e.1 = .ok F) ∧
      ∀ F, ((updateFiles h c m).1.fs.get? F).getD [] = ((c.fs.get? F).getD []) ++
        logText (es.map (fun e => (cacheName c.directory c.cwd e.1, (h e.2).namePair))) F := by
  intro m
  induction m with
  | nil =>
    intro c hc
    exact ⟨hc, rfl, rfl, [], by simp, by simp [updateFiles, logText]⟩
  | cons x m ih =>
    obtain ⟨k, vs⟩ := x
    intro c hc
    have key : ∀ (c1 : Cache) (f : Str), updateFiles h c ((k, vs) :: m) = updateFiles h c1 m → c1.Consistent →
        c1.directory = c.directory → c1.cwd = c.cwd →
        c1.fs = addFunctionPairs c.fs f (vs.map (fun v => (h v).namePair)) →
        cacheFileName c.directory c.cwd k = .ok f →
        (updateFiles h c ((k, vs) :: m)).1.Consistent ∧ (updateFiles h c ((k, vs) :: m)).1.directory = c.directory ∧
        (updateFiles h c ((k, vs) :: m)).1.cwd = c.cwd ∧
        ∃ es : List (FilesKey × Vid), (∀ e ∈ es, e ∈ entries ((k, vs) :: m) ∧ ∃ F, cacheFileName c.directory c.cwd e.1 = .ok F) ∧
          ∀ F, ((updateFiles h c ((k, vs) :: m)).1.fs.get? F).getD [] = ((c.fs.get? F).getD []) ++
            logText (es.map (fun e => (cacheName c.directory c.cwd e.1, (h e.2).namePair))) F := by
      intro c1 f hu h1 hd hw hfs hf
      obtain ⟨a, b, b', es, hn, ht⟩ := ih c1 h1
      rw [hd, hw] at hn ht
      have hnk : cacheName c.directory c.cwd k = f := by unfold cacheName; rw [hf]
      rw [hu]
      refine ⟨a, b.trans hd, b'.trans hw, vs.map (fun v => (k, v)) ++ es, ?_, ?_⟩
      · intro e he
        rw [List.mem_append, List.mem_map] at he
        rcases he with ⟨v, hv, rfl⟩ | he
        · exact ⟨by simp [entries, hv], f, hf⟩
        · obtain ⟨q1, q2⟩ := hn e he
          refine ⟨?_, q2⟩
          simp only [entries, List.flatMap_cons, List.mem_append] at q1 ⊢
          exact Or.inr q1
      · intro F
        rw [ht F, hfs, addPairs_text, List.append_assoc, ← logText_append]
        congr 2
        simp [hnk, Function.comp_def]
    cases hg : c.cacheMap.get? k with
    | some f =>
      refine key { c with fs := addFunctionPairs c.fs f (vs.map (fun v => (h v).namePair)) } f ?_
        (by intro k' f' hh; exact hc k' f' hh) rfl rfl rfl (hc k f hg)
      conv_lhs => unfold updateFiles
      rw [hg]
    | none =>
      cases hf : cacheFileName c.directory c.cwd k with
      | error x =>
        have : updateFiles h c ((k, vs) :: m) = (c, .error x) := by
          conv_lhs => unfold updateFiles
          rw [hg]; simp only; rw [hf]
        rw [this]
        exact ⟨hc, rfl, rfl, [], by simp, by simp [logText]⟩
      | ok f =>
        refine key { c with cacheMap := c.cacheMap.set k f
                            fs := addFunctionPairs c.fs f (vs.map (fun v => (h v).namePair)) } f ?_ ?_ rfl rfl rfl hf
        · conv_lhs => unfold updateFiles
          rw [hg]; simp only; rw [hf]
        intro k' f' hh
        simp only at hh ⊢
        rw [Dict.get?_set] at hh
        split at hh
        · next hkk => subst hkk; cases hh; exact hf
        · exact hc k' f' hh

end DK
