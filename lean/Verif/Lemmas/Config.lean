import Verif.Model.Config
import Verif.Lemmas.Weights

/-!
# Reading the sections of errors
-/

namespace Plaquette
variable {F D M : Type}

/-- What the loop over the channels leaves in the section. -/
theorem ErrSection.channels_ok {read : D → D × Except Err M} {empty : M} : ∀ {order : List (List Char)} {s s' : ErrSection D M},
    order.Nodup → ErrSection.channels read empty order s = (s', .ok ()) →
    s'.dataPath = s.dataPath ∧ s'.sample = s.sample ∧ s'.loadFile = s.loadFile ∧
    (∀ k, k ∉ order → dictGet s'.chan k = dictGet s.chan k) ∧
    ∀ k ∈ order, ∃ m, dictGet s'.chan k = some (.obj m) ∧
      (dictGet s.chan k = none ∧ m = empty ∨ ∃ d, dictGet s.chan k = some (.dict d) ∧ (read d).2 = .ok m)
  | [], s, s', _, h => by
    cases h
    exact ⟨rfl, rfl, rfl, fun _ _ => rfl, fun k hk => by cases hk⟩
  | k :: ks, s, s', hn, h => by
    have hk := (List.nodup_cons.1 hn).1
    have fin : ∀ m, ErrSection.channels read empty ks { s with chan := dictSet s.chan k (.obj m) } = (s', .ok ()) →
        (dictGet s.chan k = none ∧ m = empty ∨ ∃ d, dictGet s.chan k = some (.dict d) ∧ (read d).2 = .ok m) →
        s'.dataPath = s.dataPath ∧ s'.sample = s.sample ∧ s'.loadFile = s.loadFile ∧
        (∀ k', k' ∉ k :: ks → dictGet s'.chan k' = dictGet s.chan k') ∧
        ∀ k' ∈ k :: ks, ∃ m, dictGet s'.chan k' = some (.obj m) ∧
          (dictGet s.chan k' = none ∧ m = empty ∨ ∃ d, dictGet s.chan k' = some (.dict d) ∧ (read d).2 = .ok m) := by
      intro m h hm
      obtain ⟨h1, h2, h3, h4, h5⟩ := ErrSection.channels_ok (List.nodup_cons.1 hn).2 h
      refine ⟨h1, h2, h3, fun k' hk' => ?_, fun k' hk' => ?_⟩
      · rw [List.mem_cons, not_or] at hk'
        rw [h4 k' hk'.2, dictGet_set, if_neg hk'.1]
      · by_cases e : k' = k
        · subst e
          refine ⟨m, ?_, hm⟩
          rw [h4 k' hk, dictGet_set, if_pos rfl]
        · obtain ⟨m', h6, h7⟩ := h5 k' ((List.mem_cons.1 hk').resolve_left e)
          dsimp only at h7
          rw [dictGet_set, if_neg e] at h7
          exact ⟨m', h6, h7⟩
    unfold ErrSection.channels at h
    cases hg : dictGet s.chan k with
    | none =>
      rw [hg] at h
      exact fin empty h (.inl ⟨hg, rfl⟩)
    | some v =>
      cases v with
      | obj m => rw [hg] at h; cases h
      | dict d =>
        rw [hg] at h
        dsimp only at h
        rcases hr : read d with ⟨d', _ | m⟩
        · rw [hr] at h; cases h
        · rw [hr] at h
          exact fin m h (.inr ⟨d, hg, by rw [hr]⟩)

/-- The first part of `from_dict`. -/
theorem ErrSection.paths_ok {fs : Files} {default : List Char} {s s' : ErrSection D M} (h : s.paths fs default = (s', .ok ())) :
    s'.dataPath = some (s.dataPath.getD default) ∧ s'.loadFile = some (s.loadFile.getD s.dataPath.isSome) ∧ s'.sample = s.sample ∧
      s'.chan = s.chan := by
  unfold ErrSection.paths at h
  rcases s with ⟨_ | p, sm, _ | l, ch⟩
  · cases h; exact ⟨rfl, rfl, rfl, rfl⟩
  · cases h; exact ⟨rfl, rfl, rfl, rfl⟩
  · dsimp only at h
    rcases hv : validateFilepath fs p true with _ | b
    · rw [hv] at h; cases h
    · rw [hv] at h
      have hb : b = true := by
        unfold validateFilepath at hv
        split at hv
        · cases hv
        · split at hv
          · cases hv
          · cases hv; rfl
      subst hb
      cases h; exact ⟨rfl, rfl, rfl, rfl⟩
  · dsimp only at h
    rcases hv : validateFilepath fs p l with _ | b
    · rw [hv] at h; cases h
    · rw [hv] at h; cases h; exact ⟨rfl, rfl, rfl, rfl⟩

/-- What `from_dict` has read, and what it leaves in the section. -/
theorem ErrSection.read_ok {fs : Files} {default : List Char} {sample : Bool} {read : D → D × Except Err M} {empty : M}
    {order : List (List Char)} {s s' : ErrSection D M} {p : PathConfig} {b : Bool} (hn : order.Nodup)
    (h : s.read fs default sample read empty order = (s', .ok (p, b))) :
    p = ⟨s.dataPath.getD default, s.loadFile.getD s.dataPath.isSome⟩ ∧ b = s.sample.getD sample ∧
    s'.dataPath = some p.dataPath ∧ s'.loadFile = some p.loadFile ∧ s'.sample = some b ∧
    validateFilepath fs p.dataPath p.loadFile = .ok true ∧
    ∀ k ∈ order, dictGet s'.chan k = some (.obj (s'.metaOf empty k)) ∧
      (dictGet s.chan k = none ∧ s'.metaOf empty k = empty ∨
        ∃ d, dictGet s.chan k = some (.dict d) ∧ (read d).2 = .ok (s'.metaOf empty k)) := by
  unfold ErrSection.read at h
  rcases hp : s.paths fs default with ⟨s1, e | _⟩
  · rw [hp] at h; cases h
  · rw [hp] at h
    dsimp only at h
    obtain ⟨p1, p2, p3, p4⟩ := ErrSection.paths_ok hp
    rcases hc : ErrSection.channels read empty order { s1 with sample := some (s1.sample.getD sample) } with ⟨s2, e | _⟩
    · rw [hc] at h; cases h
    · rw [hc] at h
      dsimp only at h
      obtain ⟨c1, c2, c3, c4, c5⟩ := ErrSection.channels_ok hn hc
      dsimp only at c1 c2 c3 c5
      rcases hv : validateFilepath fs (s2.dataPath.getD []) (s2.loadFile.getD false) with e | v
      · rw [hv] at h; cases h
      · rw [hv] at h
        dsimp only at h
        have hv' : v = true := by
          unfold validateFilepath at hv
          split at hv
          · cases hv
          · split at hv
            · cases hv
            · cases hv; rfl
        subst hv'
        cases h
        rw [c1, p1, c3, p2, c2, p3] at *
        refine ⟨rfl, rfl, rfl, rfl, rfl, hv, fun k hk => ?_⟩
        obtain ⟨m, h6, h7⟩ := c5 k hk
        have hm : s'.metaOf empty k = m := by unfold ErrSection.metaOf; rw [h6]
        rw [hm]
        rw [p4] at h7
        exact ⟨h6, h7⟩

/-- A section that was read cannot be read again. -/
theorem ErrSection.read_again {fs : Files} {default default' : List Char} {sample sample' : Bool} {read : D → D × Except Err M} {empty : M}
    {order order' : List (List Char)} {s s' : ErrSection D M} {p : PathConfig} {b : Bool} (hn : order.Nodup)
    (h : s.read fs default sample read empty order = (s', .ok (p, b))) (ho : order'.Perm order) (he : order ≠ []) :
    s'.read fs default' sample' read empty order' = (s', .error .attributeError) := by
  obtain ⟨-, -, h1, h2, h3, h4, h5⟩ := ErrSection.read_ok hn h
  rcases s' with ⟨q, sm, l, ch⟩
  dsimp only at h1 h2 h3 h5
  subst h1 h2 h3
  unfold ErrSection.read ErrSection.paths
  dsimp only
  rw [h4]
  dsimp only
  cases order' with
  | nil => exact absurd ho.symm.eq_nil he
  | cons k ks =>
    obtain ⟨h6, -⟩ := h5 k (ho.mem_iff.1 (List.mem_cons_self ..))
    unfold ErrSection.channels
    dsimp only [Option.getD_some]
    rw [h6]

theorem ErrSection.truthy_of_read {fs : Files} {default : List Char} {sample : Bool} {read : D → D × Except Err M} {empty : M}
    {order : List (List Char)} {s s' : ErrSection D M} {p : PathConfig} {b : Bool} (hn : order.Nodup)
    (h : s.read fs default sample read empty order = (s', .ok (p, b))) : s'.truthy = true := by
  obtain ⟨-, -, h1, -⟩ := ErrSection.read_ok hn h
  unfold ErrSection.truthy
  rw [h1]; rfl

end Plaquette
