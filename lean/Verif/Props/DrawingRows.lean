import Verif.Props.Visualizer
import Verif.Props.DecoderState

/-!
# C107: lines and frames in drawings; C109: results that have not been combined
-/

namespace Plaquette

/-- The points of the lines: for every edge its two ends, and a gap behind them. -/
theorem C107_segments (L : Lattice) : (edgeRows L).length = 3 * L.edges.length ∧
    ∀ (k : Nat) (hk : k < L.edges.length),
      (edgeRows L)[3 * k]? = some (L.edges[k].factor, some ((L.edges[k].op.1 : ℚ), (L.edges[k].op.2 : ℚ))) ∧
      (edgeRows L)[3 * k + 1]? = some (L.edges[k].factor, some ((L.edges[k].data.1 : ℚ), (L.edges[k].data.2 : ℚ))) ∧
      (edgeRows L)[3 * k + 2]? = some (L.edges[k].factor, none) := by
  unfold edgeRows
  induction L.edges with
  | nil => exact ⟨rfl, fun k hk => absurd hk (Nat.not_lt_zero k)⟩
  | cons e es ih =>
    refine ⟨by rw [List.flatMap_cons, List.length_append, ih.1, List.length_cons]; simp only [List.length_cons, List.length_nil]; omega, ?_⟩
    intro k hk
    cases k with
    | zero => exact ⟨rfl, rfl, rfl⟩
    | succ k =>
      obtain ⟨h0, h1, h2⟩ := ih.2 k (by simpa using hk)
      exact ⟨h0, h1, h2⟩

example : ∃ L : Lattice, 1 < L.edges.length ∧ (edgeRows L).length = 3 * L.edges.length := ⟨rep3Viz.lattice, by decide +kernel, (C107_segments _).1⟩

/-- Which arguments are accepted as frames: none, or a list of one frame. -/
theorem C107_frames (a : Option FrameArg) (l : List FrameBits) : FrameArg.check a = .ok l ↔ (a = none ∧ l = []) ∨ ∃ f, a = some (.list [f]) ∧ l = [f] := by
  match a with
  | none => simp [FrameArg.check, eq_comm]
  | some (.bare f) => simp only [FrameArg.check]; split <;> simp
  | some (.list []) => simp [FrameArg.check]
  | some (.list [f]) => simp [FrameArg.check, eq_comm]
  | some (.list (f :: g :: fs)) => simp [FrameArg.check]

example : FrameArg.check (some (.list [])) = .error .assertionError := rfl

/-- No correction is given while a component with edges has a result that has not been combined. -/
theorem C109_not_combined {W τ : Type} (g : SynGraph W) (n : Nat) (d : DecState τ) (i : Nat) (h : i < g.components.length) (h' : i < d.comps.length)
    (he : g.components[i].edges ≠ []) (hn : d.comps[i].new = true) : d.frame g n = .error .valueError := by
  unfold DecState.frame
  rw [if_pos]
  rw [List.any_eq_true]
  refine ⟨(g.components[i], d.comps[i]), List.mem_iff_getElem.2 ⟨i, by simp [h, h'], by simp⟩, ?_⟩
  simp [hn, he]

example (c : Comps) (e : SEdge Unit) : DecState.frame (⟨1, 1, 1, [e], c, [⟨[0], [0], [[0]], [none]⟩]⟩ : SynGraph Unit) 1 (⟨[⟨[true], [false], [true], true, none⟩], fun _ => false⟩ : DecState Unit) =
    .error .valueError := C109_not_combined _ _ _ 0 Nat.one_pos Nat.one_pos (List.cons_ne_nil _ _) rfl

end Plaquette
