import Verif.Lemmas.FabricationCss
import Verif.Props.NoisyExperiment

/-!
# The logical operators that are chosen by the letter Z
-/

namespace Plaquette

/-- A text of letters Z chooses operators of odd index. -/
theorem allZ_odd {s : List Char} (hs : ∀ c ∈ s, c = 'Z') {n : Nat} {is : List Int} (h : logicalOpsToIndices n (.str s) = .ok is) : ∀ i ∈ is, i % 2 = 1 := by
  have h0 : mapLoop selIndex s.zipIdx = .ok is := by
    unfold logicalOpsToIndices at h
    dsimp only at h
    split at h
    · cases h
    next l hl =>
    split_ifs at h
    cases h
    exact hl
  intro i hi
  obtain ⟨e, he, h1⟩ := mapLoop_src h0 hi
  have hc : e.1 = 'Z' := hs _ (List.mem_of_getElem? (List.mem_zipIdx_iff_getElem?.1 he))
  unfold selIndex at h1
  rw [hc] at h1
  rw [if_neg (by decide), if_pos rfl] at h1
  cases h1
  omega

/-- All operators of odd index consist of letters Z. -/
def Lattice.OddZ (L : Lattice) : Prop := ∀ (i : Nat) l, L.logicals[i]? = some l → i % 2 = 1 → ∀ e ∈ L.opEdges l.1, e.factor = .Z

theorem Lattice.OddZ.onlyZ {L : Lattice} (h : L.OddZ) (r : Nat) {s : List Char} (hs : ∀ c ∈ s, c = 'Z') : OnlyZ (L.latCode r) (.str s) := by
  intro is his i hi a ha q
  have hi0 : 0 ≤ i := by
    have := (indices_inv his).2 i hi
    omega
  have hodd := allZ_odd hs his i hi
  have ha' : (L.logicals[i.toNat]?).map (fun l => L.vop l.1) = some a := by rw [← List.getElem?_map]; exact ha
  obtain ⟨l, hl, rfl⟩ := Option.map_eq_some_iff.1 ha'
  have hz := h i.toNat l hl (by omega)
  show xorSum _ _ = false
  exact xorSum_false fun e he => by rw [hz e he]; simp [Letter.hasX]

theorem oddZ_of_table {L : Lattice} (hw : L.Wf) {f : StabGroup → Letter} (ht : ∀ e ∈ L.edges, (e.op, e.factor) ∈ L.table f nameLetter)
    (hl : ∀ (i : Nat) l, L.logicals[i]? = some l → i % 2 = 1 → l.2 = ['Z']) : L.OddZ := by
  have h1 : (L.table f nameLetter).map Prod.fst = L.stabgens.map Prod.fst ++ L.logicals.map Prod.fst := by
    simp [Lattice.table, Function.comp_def]
  have hn : ((L.table f nameLetter).map Prod.fst).Nodup := by
    rw [h1]
    have h2 := hw.occ
    unfold Lattice.occupied at h2
    rw [List.append_assoc] at h2
    exact (List.nodup_append.mp h2).2.1
  intro i l hil hodd e he
  obtain ⟨he, hop⟩ := List.mem_filter.1 he
  have hop : e.op = l.1 := by simpa using hop
  have hm : (l.1, nameLetter l.2) ∈ L.table f nameLetter := List.mem_append_right _ (List.mem_map.2 ⟨l, List.mem_of_getElem? hil, rfl⟩)
  have := ht e he
  rw [hop] at this
  rw [fst_unique hn this hm, hl i l hil hodd]
  rfl

theorem two_logicals {a b : Pos} (i : Nat) (l : Pos × List Char) (h : [(a, ['X']), (b, ['Z'])][i]? = some l) (hi : i % 2 = 1) : l.2 = ['Z'] := by
  match i, h with
  | 0, _ => omega
  | 1, h => cases h; rfl

theorem Planar.oddZ {size : Nat} (h2 : 2 ≤ size) (order : List (Int × Int)) : (Planar.lat size order).OddZ :=
  oddZ_of_table (Planar.wf _ _ (by omega)) (Planar.table size order) two_logicals

theorem Toric.oddZ {size : Nat} (h2 : 2 ≤ size) (order : List (Int × Int)) : (Toric.lat size order).OddZ := by
  refine oddZ_of_table (Toric.wf _ h2) (Toric.table size order) fun i l h hi => ?_
  have h : (Toric.fam size).logs[i]? = some l := by rw [← Fam.lat_logs]; exact h
  match i, h with
  | 0, _ => omega
  | 1, h => cases h; rfl
  | 2, _ => omega
  | 3, h => cases h; rfl

theorem Rotated.oddZ {size : Nat} (h2 : 2 ≤ size) (order : List (Int × Int)) : (Rotated.lat size false order).OddZ := by
  refine oddZ_of_table (Rotated.wf _ h2) (f := groupLetter) (fun e he => ?_) fun i l h hi => ?_
  · have := Rotated.table size false order e he
    simpa [everySecond] using this
  · have h : (Rotated.fam size false).logs[i]? = some l := by rw [← Fam.lat_logs]; exact h
    exact two_logicals i l h hi

theorem Rep.oddZ {size : Nat} (h3 : 3 ≤ size) : (Rep.lat size).OddZ :=
  oddZ_of_table (Rep.wf size h3) (Rep.table size) two_logicals

end Plaquette
