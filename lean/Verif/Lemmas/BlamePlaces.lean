import Verif.Lemmas.BlameCount
import Verif.Spec.LocalNoise

/-!
# The instructions that can cause something at a place
-/

namespace Plaquette
variable {F : Type} {L : Lattice} {fl : Flags} {ge1 : Name → Nat → List (Gate F)} {ge2 : Name → Nat → Nat → List (Gate F)} {pg eg err : Nat → List (Gate F)}

/-- The positions, in a circuit that starts with `o` instructions and goes on with copies of a block, of the instructions of copy `t` with a property. -/
def spots (o : Nat) (block : List (Gate F)) (P : Gate F → Bool) (t : Nat) : Finset Nat :=
  ((Finset.range block.length).filter fun j => (block[j]?.map P).getD false = true).image fun j => o + t * block.length + j

theorem countP_range (P : Gate F → Bool) : ∀ block : List (Gate F), ((Finset.range block.length).filter fun j => (block[j]?.map P).getD false = true).card = block.countP P
  | [] => rfl
  | g :: block => by
    have ih := countP_range P block
    rw [List.countP_cons, ← ih]
    have e : (Finset.range (g :: block).length).filter (fun j => ((g :: block)[j]?.map P).getD false = true) =
        (if P g = true then {0} else ∅) ∪ ((Finset.range block.length).filter fun j => (block[j]?.map P).getD false = true).image (· + 1) := by
      ext j
      cases j with
      | zero =>
        by_cases hg : P g = true <;> simp [hg]
      | succ j =>
        by_cases hg : P g = true <;> simp [hg]
    rw [e, Finset.card_union_of_disjoint, Finset.card_image_of_injective _ (fun a b h => Nat.succ.inj h), Nat.add_comm]
    · congr 1
      split <;> rfl
    · rw [Finset.disjoint_left]
      intro j h1 h2
      obtain ⟨k, _, rfl⟩ := Finset.mem_image.1 h2
      split at h1 <;> simp at h1

theorem spots_card (o : Nat) (block : List (Gate F)) (P : Gate F → Bool) (t : Nat) : (spots o block P t).card ≤ block.countP P :=
  Finset.card_image_le.trans (countP_range P block).le

theorem mem_spots {o : Nat} {block : List (Gate F)} {P : Gate F → Bool} {t i : Nat} : i ∈ spots o block P t ↔ ∃ j g, block[j]? = some g ∧ P g = true ∧ i = o + t * block.length + j := by
  unfold spots
  simp only [Finset.mem_image, Finset.mem_filter, Finset.mem_range]
  constructor
  · rintro ⟨j, ⟨hj, h⟩, rfl⟩
    rw [List.getElem?_eq_getElem hj] at h
    exact ⟨j, _, List.getElem?_eq_getElem hj, h, rfl⟩
  · rintro ⟨j, g, h1, h2, rfl⟩
    refine ⟨j, ⟨(List.getElem?_eq_some_iff.1 h1).1, ?_⟩, rfl⟩
    rw [h1]
    exact h2

theorem spots_unique {o : Nat} {block : List (Gate F)} {P P' : Gate F → Bool} {t t' i : Nat} (h : i ∈ spots o block P t) (h' : i ∈ spots o block P' t') :
    t = t' ∧ ∃ g, P g = true ∧ P' g = true := by
  obtain ⟨j, g, h1, h2, h3⟩ := mem_spots.1 h
  obtain ⟨j', g', h1', h2', h3'⟩ := mem_spots.1 h'
  have hj := (List.getElem?_eq_some_iff.1 h1).1
  have hj' := (List.getElem?_eq_some_iff.1 h1').1
  have e : t * block.length + j = t' * block.length + j' := by omega
  have ht : t = t' := by
    have := congrArg (· / block.length) e
    simp only [Nat.mul_comm _ block.length] at this
    rwa [Nat.mul_add_div (by omega), Nat.mul_add_div (by omega), Nat.div_eq_of_lt hj, Nat.div_eq_of_lt hj', Nat.add_zero, Nat.add_zero] at this
  subst ht
  obtain rfl : j = j' := by omega
  rw [h1] at h1'
  cases h1'
  exact ⟨rfl, g, h2, h2'⟩

theorem flatMap_split {α : Type*} (trs : Nat → List α) {t r : Nat} (ht : t < r) : ∃ rest, (List.range r).flatMap trs = (List.range t).flatMap trs ++ (trs t ++ rest) := by
  obtain ⟨k, rfl⟩ : ∃ k, r = t + (1 + k) := ⟨r - t - 1, by omega⟩
  rw [List.range_add, List.flatMap_append]
  refine ⟨((List.range k).map fun j => t + (1 + j)).flatMap trs, ?_⟩
  congr 1
  rw [Nat.add_comm 1 k, List.range_succ_eq_map, List.map_cons, List.flatMap_cons, List.map_map]
  congr 2
  exact List.map_congr_left fun j _ => by show t + (j + 1) = t + (1 + j); omega

theorem flatMap_length {α : Type*} (trs : Nat → List α) {t l : Nat} (h : ∀ u < t, (trs u).length = l) : ((List.range t).flatMap trs).length = t * l := by
  induction t with
  | zero => simp
  | succ t ih =>
    rw [List.range_succ, List.flatMap_append, List.length_append, ih fun u hu => h u (by omega), List.flatMap_cons, List.flatMap_nil, List.append_nil, h t (by omega), Nat.succ_mul]

/-- The rounds with errors start after this many instructions. -/
def Lattice.noisyStart (F : Type) (L : Lattice) (anc : Bool) (as : List Pos) : Nat := (L.selGates (F := F) anc as ++ (L.noisyRound fun _ => [])).length

/-- The instructions of a round. -/
def Lattice.roundBlock (L : Lattice) (ge1 : Name → Nat → List (Gate F)) (ge2 : Name → Nat → Nat → List (Gate F)) (pg eg err : Nat → List (Gate F)) : List (Gate F) :=
  dataGates pg eg (List.range L.dataqubits.length) ++ L.gateRound ge1 ge2 err

/-- A cause in a set. -/
def Caused (tr : List (Kicked1 F)) (C : Finset Nat) : Prop := ∃ i ∈ C, ∃ x, tr[i]? = some x ∧ struck x

theorem round_index {anc : Bool} {r t : Nat} {as : List Pos} {tr pre post : List (Kicked1 F)} {trs : Nat → List (Kicked1 F)} (htr : tr = pre ++ (List.range r).flatMap trs ++ post)
    (hok : ∀ x ∈ tr, KickOk x.1 x.2) (h1 : pre.map Prod.fst = L.selGates anc as ++ (L.noisyRound fun _ => []))
    (h2 : ∀ t < r - 1, (trs t).map Prod.fst = dataGates pg eg (List.range L.dataqubits.length) ++ L.gateRound ge1 ge2 err)
    (h3 : (trs (r - 1)).map Prod.fst = dataGates pg eg (List.range L.dataqubits.length) ++ (L.noisyRound fun _ => [])) (ht : t < r)
    {x : Kicked1 F} (hx : x ∈ trs t) (hs : struck x) {P : Gate F → Bool} (hP : P x.1 = true) :
    Caused tr (spots (L.noisyStart F anc as) (L.roundBlock ge1 ge2 pg eg err) P t) := by
  obtain ⟨j, hj⟩ := List.getElem?_of_mem hx
  have hjl := (List.getElem?_eq_some_iff.1 hj).1
  obtain ⟨rest, hrest⟩ := flatMap_split trs ht
  have hlen : ∀ u < t, (trs u).length = (L.roundBlock ge1 ge2 pg eg err).length := fun u hu => by
    rw [← List.length_map (f := Prod.fst), h2 u (by omega)]
    rfl
  have hmem : x ∈ tr := by
    rw [htr, hrest]
    simp [hx]
  have hn : x.1.name.noisy = true := (home_of_kick (hok x hmem) (struck_ne hs)).2
  have hpl : pre.length = L.noisyStart F anc as := by
    rw [← List.length_map (f := Prod.fst), h1]
    rfl
  refine ⟨_, mem_spots.2 ⟨j, x.1, ?_, hP, rfl⟩, x, ?_, hs⟩
  · have hjm : ((trs t).map Prod.fst)[j]? = some x.1 := by rw [List.getElem?_map, hj]; rfl
    by_cases htr1 : t < r - 1
    · rw [h2 t htr1] at hjm
      exact hjm
    · have : t = r - 1 := by omega
      rw [this, h3] at hjm
      unfold Lattice.roundBlock
      rcases Nat.lt_or_ge j (dataGates pg eg (List.range L.dataqubits.length)).length with hl | hl
      · rw [List.getElem?_append_left hl] at hjm ⊢
        exact hjm
      · rw [List.getElem?_append_right hl] at hjm
        have := clean_noisyRound (F := F) L x.1 (List.mem_of_getElem? hjm)
        rw [this] at hn
        cases hn
  · rw [htr, hrest, List.append_assoc, ← hpl, ← flatMap_length trs hlen, Nat.add_assoc, List.getElem?_append_right (by omega), Nat.add_sub_cancel_left, List.append_assoc,
      List.getElem?_append_right (by omega), Nat.add_sub_cancel_left, List.append_assoc, List.getElem?_append_left hjl]
    exact hj

theorem gateFault_struck {d : Nat} {x : Kicked1 F} (h : gateFault d x = true) : struck x := by
  unfold gateFault at h
  rw [Bool.and_eq_true] at h
  exact .inl h.1

theorem measFault_struck {x : Kicked1 F} (h : measFault x = true) : struck x ∧ x.1.name = .ERROR := by
  unfold measFault at h
  rw [Bool.and_eq_true] at h
  exact ⟨.inl h.1, of_decide_eq_true h.2⟩

theorem blame_index {anc : Bool} {r : Nat} {as : List Pos} {tr : List (Kicked1 F)} (hok : ∀ x ∈ tr, KickOk x.1 x.2) {p e : Nat → Nat → Bool} {Q W : Nat → Finset Nat}
    (h : RoundBlame L ge1 ge2 pg eg err anc r as tr p e Q W) {t : Nat} (ht : t < r) :
    let C : (Gate F → Bool) → Finset Nat := fun P => spots (L.noisyStart F anc as) (L.roundBlock ge1 ge2 pg eg err) P t
    (∀ q, p t q = true ∨ e t q = true → Caused tr (C (atHome q))) ∧
    (∀ q ∈ Q t, ∃ a ∈ L.stabgens.map Prod.fst, q ∈ L.suppF a ∧ Caused tr (C (atHome (L.idx a))) ∧ ∃ x ∈ tr, gateFault L.dataqubits.length x = true) ∧
    ∀ i ∈ W t, Caused tr (C (flipAt i)) ∨ ∃ b ∈ L.stabgens.map Prod.fst, i = L.idx b ∧ ∃ a ∈ L.stabgens.map Prod.fst, (∃ q, q ∈ L.suppF a ∧ q ∈ L.suppF b) ∧
      Caused tr (C (atHome (L.idx a))) ∧ ∃ x ∈ tr, gateFault L.dataqubits.length x = true := by
  intro C
  obtain ⟨pre, post, trs, h1, h2, h3, h4, h5⟩ := h
  have hmem : ∀ x ∈ trs t, x ∈ tr := by
    intro x hx
    obtain ⟨rest, hrest⟩ := flatMap_split trs ht
    rw [h1, hrest]
    simp [hx]
  have home : ∀ x ∈ trs t, struck x → atHome (firstQubit x.2) x.1 = true := by
    intro x hx hs
    obtain ⟨k1, k2⟩ := home_of_kick (hok x (hmem x hx)) (struck_ne hs)
    unfold atHome
    rw [k1, k2]
    simp
  refine ⟨fun q hq => ?_, fun q hq => ?_, fun i hi => ?_⟩
  · obtain ⟨x, hx, hs, hxq⟩ := (h5 t ht).data q hq
    exact round_index h1 hok h2 h3 h4 ht hx hs (by rw [← hxq]; exact home x hx hs)
  · obtain ⟨a, ha, hqa, x, hx, hg, hxa⟩ := (h5 t ht).spread q hq
    exact ⟨a, ha, hqa, round_index h1 hok h2 h3 h4 ht hx (gateFault_struck hg) (by rw [← hxa]; exact home x hx (gateFault_struck hg)), x, hmem x hx, hg⟩
  · rcases (h5 t ht).wrong i hi with ⟨x, hx, hm, hxi⟩ | ⟨b, hb, hib, a, ha, hq, x, hx, hg, hxa⟩
    · obtain ⟨hs, hn⟩ := measFault_struck hm
      refine .inl (round_index h1 hok h2 h3 h4 ht hx hs ?_)
      obtain ⟨k1, k2⟩ := home_of_kick (hok x (hmem x hx)) (struck_ne hs)
      unfold flipAt
      rw [k1, hn, hxi]
      simp
    · exact .inr ⟨b, hb, hib, a, ha, hq, round_index h1 hok h2 h3 h4 ht hx (gateFault_struck hg) (by rw [← hxa]; exact home x hx (gateFault_struck hg)), x, hmem x hx, hg⟩

end Plaquette
