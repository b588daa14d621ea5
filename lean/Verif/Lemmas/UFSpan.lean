import Verif.Lemmas.UFStep

/-!
# What can be explained: the converse of `EvenClusters.span`
-/

namespace Plaquette

theorem xsum_false (l : List Nat) : xsum l (fun _ => false) = false := xsum_zero fun _ _ => rfl

theorem xsum_and (l : List Nat) (b : Bool) (f : Nat → Bool) : xsum l (fun i => b && f i) = (b && xsum l f) := by
  cases b <;> simp [xsum_false]

theorem xsum_comm (l k : List Nat) (f : Nat → Nat → Bool) : xsum l (fun i => xsum k fun j => f i j) = xsum k fun j => xsum l fun i => f i j := by
  induction l with
  | nil => simp [xsum_false]
  | cons a l ih =>
    simp only [xsum_cons, ih]
    rw [← xsum_xor]

/-- A sum of ends of edges is even on every cluster of these edges that has no dangling edge. -/
theorem InSpan.even' {n : Nat} {edges : List (List Nat)}
    (hwf : ∀ e ∈ edges, e = [] ∨ (∃ a, e = [a] ∧ a < n) ∨ ∃ a b, e = [a, b] ∧ a ≠ b ∧ a < n ∧ b < n) {S : Nat → Prop} {syn : Nat → Bool} {x : Nat → Bool}
    (hx : ∀ i, i < edges.length → x i = true → S i) (hb : ∀ v, v < n → bd edges x v = syn v) : EvenClusters n edges S syn := by
  classical
  intro v _
  by_cases hd : ∃ u i, JoinedBy edges S v u ∧ S i ∧ edges[i]? = some [u]
  · exact .inl hd
  right
  have hset : {u | u < n ∧ JoinedBy edges S v u ∧ syn u = true} =
      (((List.range n).filter fun u => decide (JoinedBy edges S v u) && syn u).toFinset : Set Nat) := by
    ext u
    simp only [Set.mem_ofPred_eq, List.coe_toFinset, List.mem_filter, List.mem_range, Bool.and_eq_true, decide_eq_true_eq]
  rw [hset, Set.ncard_coe_finset, List.toFinset_card_of_nodup (List.nodup_range.filter _), Nat.even_iff]
  have h0 : xsum (List.range n) (fun u => decide (JoinedBy edges S v u) && syn u) = false := by
    have h1 : xsum (List.range n) (fun u => decide (JoinedBy edges S v u) && syn u) =
        xsum (List.range n) (fun u => xsum (List.range edges.length) fun i => x i && (decide (JoinedBy edges S v u) && touches edges i u)) := by
      refine xsum_congr fun u hu => ?_
      rw [← hb u (List.mem_range.1 hu), bd, ← xsum_and]
      refine xsum_congr fun i _ => ?_
      generalize decide (JoinedBy edges S v u) = a
      generalize x i = b
      generalize touches edges i u = c
      revert a b c; decide
    rw [h1, xsum_comm]
    refine xsum_zero fun i hi => ?_
    rw [xsum_and]
    cases hxi : x i
    · rfl
    rw [Bool.true_and]
    have hil := List.mem_range.1 hi
    have hSi := hx i hil hxi
    have he : edges[i]? = some edges[i] := List.getElem?_eq_getElem hil
    rcases hwf _ (List.mem_of_getElem? he) with hea | ⟨a, hea, ha⟩ | ⟨a, b, hea, hab, ha, hb'⟩
    · rw [hea] at he
      exact xsum_zero fun u _ => by rw [touches_some he]; simp
    · rw [hea] at he
      refine xsum_zero fun u _ => ?_
      rw [touches_some he]
      by_cases hu : JoinedBy edges S v u
      · have : u ≠ a := by rintro rfl; exact hd ⟨u, i, hu, hSi, he⟩
        simp [this]
      · simp [hu]
    · rw [hea] at he
      have hiff : JoinedBy edges S v a ↔ JoinedBy edges S v b :=
        ⟨fun h => h.tail ⟨i, _, hSi, he, by simp, by simp⟩, fun h => h.tail ⟨i, _, hSi, he, by simp, by simp⟩⟩
      have h2 : xsum (List.range n) (fun u => decide (JoinedBy edges S v u) && touches edges i u) =
          xsum (List.range n) (fun u => (decide (JoinedBy edges S v a) && decide (u = a)) ^^ (decide (JoinedBy edges S v b) && decide (u = b))) := by
        refine xsum_congr fun u _ => ?_
        rw [touches_some he]
        by_cases h3 : u = a
        · subst h3; simp [hab]
        · by_cases h4 : u = b
          · subst h4; simp [h3]
          · simp [h3, h4]
      rw [h2, xsum_xor, xsum_single List.nodup_range (List.mem_range.2 ha) (fun j _ hj => by simp [hj]),
        xsum_single List.nodup_range (List.mem_range.2 hb') (fun j _ hj => by simp [hj])]
      simp only [decide_true, Bool.and_true]
      rw [decide_eq_decide.2 hiff]
      exact Bool.xor_self _
  have := mt (xsum_eq_odd (List.range n) _).2 (by rw [h0]; simp)
  omega

theorem InSpan.even {n : Nat} {edges : List (List Nat)} (hwf : EdgesWf n edges) {S : Nat → Prop} {syn : Nat → Bool} {x : Nat → Bool}
    (hx : ∀ i, i < edges.length → x i = true → S i) (hb : ∀ v, v < n → bd edges x v = syn v) : EvenClusters n edges S syn :=
  InSpan.even' (fun e he => .inr (hwf e he)) hx hb

end Plaquette
