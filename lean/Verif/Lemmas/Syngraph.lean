import Verif.Model.Syngraph
import Verif.Lemmas.CodeProps
import Verif.Lemmas.Lattice

/-!
# Lemmas on the edges of the syndrome graph
-/

namespace Plaquette
variable {W : Type} {n : Nat}

theorem mapLoop_get {α β : Type} {f : α → Except Err β} {l : List α} {r : List β} (h : mapLoop f l = .ok r) :
    r.length = l.length ∧ ∀ (i : Nat) (a : α), l[i]? = some a → ∃ b, f a = .ok b ∧ r[i]? = some b := by
  induction l generalizing r with
  | nil => cases h; simp
  | cons a l ih =>
    unfold mapLoop at h
    cases ha : f a with
    | error e => rw [ha] at h; cases h
    | ok b =>
      rw [ha] at h
      cases hl : mapLoop f l with
      | error e => rw [hl] at h; cases h
      | ok bs =>
        rw [hl] at h
        cases h
        obtain ⟨h1, h2⟩ := ih hl
        refine ⟨by simp [h1], fun i a' hi => ?_⟩
        cases i with
        | zero => simp at hi; subst hi; exact ⟨b, ha, by simp⟩
        | succ i => simp at hi; simpa using h2 i a' hi

theorem mapLoop_src {α β : Type} {f : α → Except Err β} {l : List α} {r : List β} (h : mapLoop f l = .ok r) {b : β} (hb : b ∈ r) :
    ∃ a ∈ l, f a = .ok b := by
  obtain ⟨h1, h2⟩ := mapLoop_get h
  obtain ⟨i, hi⟩ := List.mem_iff_getElem?.mp hb
  have hl : i < l.length := by rw [← h1]; exact (List.getElem?_eq_some_iff.mp hi).1
  obtain ⟨b', hf, hb'⟩ := h2 i _ (List.getElem?_eq_getElem hl)
  rw [hi] at hb'
  cases hb'
  exact ⟨_, List.getElem_mem hl, hf⟩

theorem mapLoop_ok_iff {α β : Type} {f : α → Except Err β} {l : List α} :
    (∃ r, mapLoop f l = .ok r) ↔ ∀ a ∈ l, ∃ b, f a = .ok b := by
  induction l with
  | nil => simp [mapLoop]
  | cons a l ih =>
    unfold mapLoop
    cases ha : f a with
    | error e => simp [ha]
    | ok b =>
      cases hl : mapLoop f l with
      | error e => rw [hl] at ih; simp [ha] at ih ⊢; exact ih
      | ok bs => rw [hl] at ih; simp [ha] at ih ⊢; exact ih

/-- Blocks of the same length: the place of an entry. -/
theorem flatten_get {α : Type} {k : Nat} {L : List (List α)} (hL : ∀ b ∈ L, b.length = k) {i j : Nat} (hj : j < k) :
    L.flatten[i * k + j]? = (L[i]?).bind (·[j]?) := by
  induction L generalizing i with
  | nil => simp
  | cons b L ih =>
    have hb := hL b (.head _)
    rw [List.flatten_cons]
    cases i with
    | zero => rw [List.getElem?_append_left (by omega)]; simp
    | succ i =>
      rw [List.getElem?_append_right (by rw [hb]; nlinarith), hb,
        show (i + 1) * k + j - k = i * k + j by rw [Nat.add_mul]; omega, ih fun b' h => hL b' (.tail _ h)]
      simp

theorem flatten_len {α : Type} {k : Nat} {L : List (List α)} (hL : ∀ b ∈ L, b.length = k) : L.flatten.length = L.length * k := by
  induction L with
  | nil => simp
  | cons b L ih =>
    rw [List.flatten_cons, List.length_append, ih fun b' h => hL b' (.tail _ h), hL b (.head _), List.length_cons, Nat.add_mul]
    omega

/-! ### Shape -/

/-- The parts of the edges that never change. -/
def shape (es : List (SEdge W)) : List (List Nat × EdgeKind) := es.map fun e => (e.vertices, e.kind)

theorem shape_len (es : List (SEdge W)) : (shape es).length = es.length := by simp [shape]

theorem shape_vertsAt {es es' : List (SEdge W)} (h : shape es = shape es') (i : Nat) : vertsAt es i = vertsAt es' i := by
  have : ∀ es : List (SEdge W), vertsAt es i = (((shape es)[i]?).map Prod.fst).getD [] := by
    intro es
    simp only [vertsAt, shape, List.getElem?_map, Option.map_map]
    rfl
  rw [this, this, h]

theorem shape_get {es es' : List (SEdge W)} (h : shape es = shape es') {i : Nat} {e : SEdge W} (he : es[i]? = some e) :
    ∃ e', es'[i]? = some e' ∧ e'.vertices = e.vertices ∧ e'.kind = e.kind := by
  have h1 : (shape es)[i]? = some (e.vertices, e.kind) := by simp [shape, he]
  rw [h] at h1
  simp only [shape, List.getElem?_map, Option.map_eq_some_iff, Prod.mk.injEq] at h1
  obtain ⟨e', a, b, c⟩ := h1
  exact ⟨e', a, b, c⟩

theorem setWeights_spec {nStab : Nat} {w : Weights W} {es es' : List (SEdge W)} (h : setWeights n nStab w es = .ok es') :
    ∃ px pz ms, broadcastW n w.pauliX = .ok px ∧ broadcastW n w.pauliZ = .ok pz ∧ broadcastW nStab w.measurement = .ok ms ∧
      mapLoop (setWeight px pz ms) es = .ok es' := by
  unfold setWeights at h
  cases hx : broadcastW n w.pauliX with
  | error e => rw [hx] at h; cases h
  | ok px =>
    rw [hx] at h
    dsimp only at h
    cases hz : broadcastW n w.pauliZ with
    | error e => rw [hz] at h; cases h
    | ok pz =>
      rw [hz] at h
      dsimp only at h
      cases hm : broadcastW nStab w.measurement with
      | error e => rw [hm] at h; cases h
      | ok ms =>
        rw [hm] at h
        exact ⟨px, pz, ms, rfl, rfl, rfl, h⟩

theorem setWeight_keeps {px pz ms : List (Option W)} {e e' : SEdge W} (h : setWeight px pz ms e = .ok e') :
    e'.vertices = e.vertices ∧ e'.kind = e.kind ∧ e'.enabled = e.enabled := by
  unfold setWeight at h
  dsimp only at h
  split at h
  · cases h
  · cases h; exact ⟨rfl, rfl, rfl⟩

theorem mapLoop_shape {px pz ms : List (Option W)} {es es' : List (SEdge W)} (h : mapLoop (setWeight px pz ms) es = .ok es') :
    shape es' = shape es := by
  obtain ⟨h1, h2⟩ := mapLoop_get h
  refine List.ext_getElem? fun i => ?_
  simp only [shape, List.getElem?_map]
  cases he : es[i]? with
  | none =>
    rw [List.getElem?_eq_none_iff] at he
    rw [List.getElem?_eq_none_iff.mpr (by omega)]
  | some e =>
    obtain ⟨e', hf, he'⟩ := h2 i e he
    obtain ⟨a, b, _⟩ := setWeight_keeps hf
    rw [he']
    simp [a, b]

theorem disableEdge_shape (es : List (SEdge W)) (i : Nat) : shape (disableEdge es i) = shape es := by
  refine List.ext_getElem? fun j => ?_
  simp only [shape, disableEdge, List.getElem?_map, List.getElem?_modify]
  cases es[j]? with
  | none => rfl
  | some e => by_cases h : i = j <;> simp [h]

theorem disableInf_shape (isInf : W → Bool) (es : List (SEdge W)) : shape (disableInf isInf es) = shape es := by
  simp only [shape, disableInf, List.map_map]
  refine List.map_congr_left fun e _ => ?_
  simp only [Function.comp_apply]
  cases e.weight with
  | none => rfl
  | some w => dsimp only; split <;> rfl

/-! ### The list of edges of `__init__` -/

theorem errorOps_len : (errorOps n).length = 2 * n := by simp [errorOps]; omega

theorem errorOps_X (q : Fin n) : (errorOps n)[q.val]? = some (.X, q) := by
  unfold errorOps
  rw [List.getElem?_append_left (by simp)]
  simp

theorem errorOps_Z (q : Fin n) : (errorOps n)[n + q.val]? = some (.Z, q) := by
  unfold errorOps
  rw [List.getElem?_append_right (by simp)]
  simp

theorem qubitEdge_ok_iff {stabs : List (Op n)} {t : Nat} {o : (Letter × Fin n) × Nat} {e : SEdge W} :
    qubitEdge stabs t o = .ok e ↔ (flipped stabs (singleOp false o.1.1 o.1.2)).length ≤ 2 ∧
      e = { vertices := (flipped stabs (singleOp false o.1.1 o.1.2)).map (vertexIdx stabs.length t), kind := .qubit t o.2 o.1.2.val (o.1.1 == .X) } := by
  unfold qubitEdge
  dsimp only
  split
  · simp; omega
  · simp only [Except.ok.injEq]
    constructor
    · rintro rfl; exact ⟨by omega, rfl⟩
    · rintro ⟨_, rfl⟩; rfl

theorem qubitEdges_spec {r : Nat} {stabs : List (Op n)} {es : List (SEdge W)} (h : qubitEdges r stabs = .ok es) :
    es.length = r * (2 * n) ∧ ∀ (t i : Nat) (o : Letter × Fin n), t < r → (errorOps n)[i]? = some o →
      (flipped stabs (singleOp false o.1 o.2)).length ≤ 2 ∧
      es[t * (2 * n) + i]? = some { vertices := (flipped stabs (singleOp false o.1 o.2)).map (vertexIdx stabs.length t), kind := .qubit t i o.2.val (o.1 == .X) } := by
  unfold qubitEdges at h
  cases hl : mapLoop (fun t => mapLoop (qubitEdge (W := W) stabs t) (errorOps n).zipIdx) (List.range r) with
  | error e => rw [hl] at h; cases h
  | ok L =>
    rw [hl] at h
    cases h
    obtain ⟨h1, h2⟩ := mapLoop_get hl
    have hb : ∀ b ∈ L, b.length = 2 * n := by
      intro b hb
      obtain ⟨t, ht⟩ := List.mem_iff_getElem?.mp hb
      have htl : t < (List.range r).length := by rw [← h1]; exact (List.getElem?_eq_some_iff.mp ht).1
      obtain ⟨b', hf, hb'⟩ := h2 t t (List.getElem?_range (by simpa using htl))
      rw [ht] at hb'
      cases hb'
      rw [(mapLoop_get hf).1, List.length_zipIdx, errorOps_len]
    refine ⟨by rw [flatten_len hb, h1, List.length_range], fun t i o ht hi => ?_⟩
    have hi' : i < 2 * n := by rw [← errorOps_len (n := n)]; exact (List.getElem?_eq_some_iff.mp hi).1
    obtain ⟨b, hf, hb'⟩ := h2 t t (List.getElem?_range ht)
    obtain ⟨e, he, hg⟩ := (mapLoop_get hf).2 i (o, i) (by simp [hi])
    obtain ⟨hle, rfl⟩ := qubitEdge_ok_iff.mp he
    refine ⟨hle, ?_⟩
    rw [flatten_get hb hi', hb']
    exact hg

theorem stabEdges_spec (r m : Nat) : (stabEdges r m : List (SEdge W)).length = (r - 1) * m ∧
    ∀ t s, t < r - 1 → s < m → (stabEdges r m : List (SEdge W))[t * m + s]? = some (stabEdge m (t + 1) s) := by
  have hb : ∀ b ∈ (List.range' 1 (r - 1)).map (fun t => (List.range m).map fun s => (stabEdge m t s : SEdge W)), b.length = m := by
    intro b hb
    obtain ⟨t, _, rfl⟩ := List.mem_map.mp hb
    simp
  unfold stabEdges
  rw [List.flatMap_def]
  refine ⟨by rw [flatten_len hb]; simp, fun t s ht hs => ?_⟩
  rw [flatten_get hb hs]
  simp [ht, hs, Nat.add_comm]

theorem mem_flipped {stabs : List (Op n)} {e : Op n} {s : Nat} :
    s ∈ flipped stabs e ↔ ∃ g, stabs[s]? = some g ∧ Anticommutes (opMat e) (opMat g) := by
  unfold flipped
  rw [List.mem_filter, List.mem_range]
  constructor
  · rintro ⟨h1, h2⟩
    rw [List.getElem?_eq_getElem h1] at h2 ⊢
    refine ⟨_, rfl, ?_⟩
    simp only [decide_eq_true_eq] at h2
    rw [anticommutes_iff]
    rw [commSign_eq] at h2
    cases hA : anti e stabs[s] with
    | true => rfl
    | false => rw [hA] at h2; exact absurd rfl h2
  · rintro ⟨g, hg, ha⟩
    refine ⟨(List.getElem?_eq_some_iff.mp hg).1, ?_⟩
    rw [hg]
    simp only [decide_eq_true_eq]
    rw [commSign_eq, (anticommutes_iff _ _).mp ha]
    decide

theorem flipped_sorted (stabs : List (Op n)) (e : Op n) : (flipped stabs e).Pairwise (· < ·) :=
  List.Pairwise.filter _ List.pairwise_lt_range

end Plaquette
