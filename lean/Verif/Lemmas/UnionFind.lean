import Verif.Model.UnionFind
import Verif.Lemmas.ErasureMain
import Mathlib.Data.Finset.Card

/-!
# Union find: the clusters, their trees, parities and boundaries
-/

namespace Plaquette

theorem JoinedBy.mono {edges : List (List Nat)} {S T : Nat → Prop} {a b : Nat} (h : JoinedBy edges S a b)
    (hST : ∀ i, S i → T i) : JoinedBy edges T a b :=
  Relation.ReflTransGen.mono (fun _ _ ⟨i, e, hi, h⟩ => ⟨i, e, hST i hi, h⟩) _ _ h

/-- The parity of the syndrome on the vertices of a cluster. -/
def psum (n : Nat) (syn : Nat → Bool) (κ : Nat → Option Nat) (c : Nat) : Bool :=
  xsum (List.range n) fun v => syn v && decide (κ v = some c)

/-- The parity stored in a cluster: `-1` if it has a dangling edge among the edges `L`, otherwise that of its syndrome. -/
def ParC (g : UGraph) (L : Nat → Prop) (s : UState) (κ : Nat → Option Nat) (c : Nat) : Prop :=
  ((s.clusters c).parity = -1 ∧ ∃ u i, κ u = some c ∧ L i ∧ g.edges[i]? = some [u]) ∨
  ((s.clusters c).parity = ((psum g.n s.syn κ c).toNat : Int) ∧ ∀ u i, κ u = some c → L i → g.edges[i]? ≠ some [u])

/-- A cluster in use. -/
structure LiveC (g : UGraph) (L : Nat → Prop) (s : UState) (κ : Nat → Option Nat) (dp : Nat → Nat) (c : Nat) (r : Nat)
    (B : List Nat) : Prop where
  root : (s.clusters c).root = some r
  bnd : (s.clusters c).boundary = some B
  kr : κ r = some c
  pr : s.parent r = none
  dr : dp r = 0
  nodup : B.Nodup
  mem : ∀ v, v ∈ B ↔ κ v = some c ∧ s.state v = .boundary
  par : ParC g L s κ c

/-- A deleted cluster. -/
structure DeadC (s : UState) (κ : Nat → Option Nat) (c : Nat) : Prop where
  bnd : (s.clusters c).boundary = none
  par : (s.clusters c).parity = 0
  none : ∀ v, κ v ≠ some c

/-- The vertices of a cluster. -/
def members (n : Nat) (κ : Nat → Option Nat) (c : Nat) : Finset Nat := (Finset.range n).filter fun v => κ v = some c

/-- What holds during union find. `κ` gives the cluster of a vertex, `dp` bounds its depth in the tree, `L` are the edges which have been
taken into account. -/
structure UInv (g : UGraph) (L : Nat → Prop) (s : UState) (κ : Nat → Option Nat) (dp : Nat → Nat) : Prop where
  lt : ∀ v, κ v ≠ none → v < g.n
  unused : ∀ v, s.state v = .unused ↔ κ v = none
  free : ∀ v, κ v = none → s.parent v = none ∧ s.cluster v = none
  top : ∀ v c, κ v = some c → s.parent v = none → s.cluster v = some c ∧ (s.clusters c).root = some v
  up : ∀ v c p, κ v = some c → s.parent v = some p → s.cluster v = none ∧ κ p = some c ∧ dp p < dp v
  depth : ∀ v c, κ v = some c → dp v < (members g.n κ c).card
  kc : ∀ v c, κ v = some c → c < s.nClusters
  cl : ∀ c, c < s.nClusters → DeadC s κ c ∨ ∃ r B, LiveC g L s κ dp c r B
  onodup : s.openList.Nodup
  opens : ∀ c, c ∈ s.openList ↔ c < s.nClusters ∧ (s.clusters c).opened = true
  par1 : ∀ c, c < s.nClusters → (s.clusters c).parity = 1 → (s.clusters c).opened = true
  link : ∀ i, L i → g.complete s i = true ∧ ∃ c, ∀ e, g.edges[i]? = some e → ∀ v ∈ e, κ v = some c
  conn : ∀ v u c, κ v = some c → κ u = some c → JoinedBy g.edges L v u
  inter : ∀ v, s.state v = .interior → ∀ i e, g.edges[i]? = some e → v ∈ e → L i

variable {g : UGraph} {L : Nat → Prop} {s : UState} {κ : Nat → Option Nat} {dp : Nat → Nat}

theorem UInv.live (h : UInv g L s κ dp) {v c : Nat} (hv : κ v = some c) : ∃ r B, LiveC g L s κ dp c r B := by
  rcases h.cl c (h.kc v c hv) with hd | hl
  · exact absurd hv (hd.none v)
  · exact hl

theorem UInv.depth_lt (h : UInv g L s κ dp) {v c : Nat} (hv : κ v = some c) : dp v < g.n := by
  have h1 := h.depth v c hv
  have h2 : (members g.n κ c).card ≤ g.n := (Finset.card_filter_le _ _).trans (by simp)
  omega

/-- Only the edges taken into account matter as a set. -/
theorem UInv.congrL {L' : Nat → Prop} (h : UInv g L s κ dp) (hL : ∀ i, L i ↔ L' i) : UInv g L' s κ dp := by
  have : L = L' := funext fun i => propext (hL i)
  rwa [← this]

/-! ## Finding the root -/

/-- Shortening a path to the root keeps everything. -/
theorem UInv.compress (h : UInv g L s κ dp) {v c r p : Nat} (hv : κ v = some c) (hp : s.parent v = some p)
    (hr : (s.clusters c).root = some r) : UInv g L { s with parent := Function.update s.parent v (some r) } κ dp := by
  obtain ⟨r', B, hl⟩ := h.live hv
  obtain rfl : r' = r := by have := hl.root.symm.trans hr; simpa using this
  have hup := h.up v c p hv hp
  refine ⟨h.lt, h.unused, ?_, ?_, ?_, h.depth, h.kc, ?_, h.onodup, h.opens, h.par1, h.link, h.conn, h.inter⟩
  · intro u hu
    have : u ≠ v := by rintro rfl; rw [hu] at hv; simp at hv
    show Function.update s.parent v (some r') u = none ∧ _
    rw [Function.update_of_ne this]
    exact h.free u hu
  · intro u d hu hpu
    have hpu : Function.update s.parent v (some r') u = none := hpu
    by_cases huv : u = v
    · subst huv; rw [Function.update_self] at hpu; simp at hpu
    · rw [Function.update_of_ne huv] at hpu
      exact h.top u d hu hpu
  · intro u d q hu hpu
    have hpu : Function.update s.parent v (some r') u = some q := hpu
    by_cases huv : u = v
    · subst huv
      rw [Function.update_self] at hpu
      obtain rfl : r' = q := by simpa using hpu
      obtain rfl : c = d := by have := hv.symm.trans hu; simpa using this
      exact ⟨hup.1, hl.kr, by rw [hl.dr]; omega⟩
    · rw [Function.update_of_ne huv] at hpu
      exact h.up u d q hu hpu
  · intro d hd
    rcases h.cl d hd with hx | ⟨r2, B2, hx⟩
    · exact .inl ⟨hx.bnd, hx.par, hx.none⟩
    · refine .inr ⟨r2, B2, hx.root, hx.bnd, hx.kr, ?_, hx.dr, hx.nodup, hx.mem, hx.par⟩
      show Function.update s.parent v (some r') r2 = none
      rw [Function.update_of_ne]
      · exact hx.pr
      · rintro rfl; rw [hx.pr] at hp; simp at hp

theorem UInv.findRoot : ∀ (k : Nat) {s : UState} (_ : UInv g L s κ dp) {v c : Nat}, κ v = some c → dp v < k →
    ∃ P r, UState.findRoot k s v = .ok ({ s with parent := P }, r) ∧ (s.clusters c).root = some r ∧
      s.cluster r = some c ∧ UInv g L { s with parent := P } κ dp := by
  intro k
  induction k with
  | zero => intro s h v c hv hk; omega
  | succ k ih =>
    intro s h v c hv hk
    unfold UState.findRoot
    cases hp : s.parent v with
    | none =>
      have ht := h.top v c hv hp
      refine ⟨s.parent, v, ?_, ht.2, ht.1, h⟩
      simp only [ht.1]
      rfl
    | some p =>
      obtain ⟨_, h2, h3⟩ := h.up v c p hv hp
      obtain ⟨P, r, e1, hr, hc, hi⟩ := ih h h2 (by omega)
      have hpv : ∃ q, P v = some q := by
        cases hq : P v with
        | some q => exact ⟨q, rfl⟩
        | none =>
          exfalso
          have := (hi.top v c hv hq).1
          have h4 : s.cluster v = none := (h.up v c p hv hp).1
          have h5 : s.cluster v = some c := this
          rw [h4] at h5; simp at h5
      obtain ⟨q, hq⟩ := hpv
      refine ⟨Function.update P v (some r), r, by simp only [e1], hr, hc, ?_⟩
      exact UInv.compress hi hv hq hr

/-- `r_cluster` gives the cluster. -/
theorem UInv.rCluster (h : UInv g L s κ dp) {v c : Nat} (hv : κ v = some c) :
    ∃ P, g.rCluster s v = .ok ({ s with parent := P }, c) ∧ UInv g L { s with parent := P } κ dp := by
  obtain ⟨P, r, e1, hr, hc, hi⟩ := UInv.findRoot g.n h hv (h.depth_lt hv)
  exact ⟨P, by simp only [UGraph.rCluster, e1, hc], hi⟩

/-! ## Dangling edges -/

theorem UInv.dangling (h : UInv g L s κ dp) {v c i : Nat} (hv : κ v = some c) (hi : g.edges[i]? = some [v])
    (hcomp : g.complete s i = true) : UInv g (fun j => L j ∨ j = i) (s.addDangling c) κ dp := by
  obtain ⟨r, B, hl⟩ := h.live hv
  have hcl : ∀ d, d ≠ c → (s.addDangling c).clusters d = s.clusters d := fun d hd => Function.update_of_ne hd _ _
  have hcc : (s.addDangling c).clusters c = { s.clusters c with parity := -1 } := Function.update_self _ _ _
  refine ⟨h.lt, h.unused, h.free, ?_, h.up, h.depth, h.kc, ?_, h.onodup, ?_, ?_, ?_, ?_, ?_⟩
  · intro u d hu hp
    refine ⟨(h.top u d hu hp).1, ?_⟩
    by_cases hd : d = c
    · subst hd; rw [hcc]; exact (h.top u d hu hp).2
    · rw [hcl d hd]; exact (h.top u d hu hp).2
  · intro d hd
    by_cases hdc : d = c
    · subst hdc
      refine .inr ⟨r, B, by rw [hcc]; exact hl.root, by rw [hcc]; exact hl.bnd, hl.kr, hl.pr, hl.dr, hl.nodup, hl.mem, ?_⟩
      exact .inl ⟨by rw [hcc], v, i, hv, .inr rfl, hi⟩
    · rcases h.cl d hd with hx | ⟨r2, B2, hx⟩
      · exact .inl ⟨by rw [hcl d hdc]; exact hx.bnd, by rw [hcl d hdc]; exact hx.par, hx.none⟩
      · refine .inr ⟨r2, B2, by rw [hcl d hdc]; exact hx.root, by rw [hcl d hdc]; exact hx.bnd, hx.kr, hx.pr, hx.dr, hx.nodup, hx.mem, ?_⟩
        rcases hx.par with ⟨h1, u, j, h2, h3, h4⟩ | ⟨h1, h2⟩
        · exact .inl ⟨by rw [hcl d hdc]; exact h1, u, j, h2, .inl h3, h4⟩
        · refine .inr ⟨by rw [hcl d hdc]; exact h1, ?_⟩
          rintro u j hu (hj | rfl) he
          · exact h2 u j hu hj he
          · rw [hi] at he
            obtain rfl : v = u := by simpa using he
            rw [hu] at hv
            exact hdc (by simpa using hv)
  · intro d
    by_cases hdc : d = c
    · subst hdc; rw [hcc]; exact h.opens d
    · rw [hcl d hdc]; exact h.opens d
  · intro d hd hp
    by_cases hdc : d = c
    · subst hdc; rw [hcc] at hp; simp at hp
    · rw [hcl d hdc] at hp ⊢; exact h.par1 d hd hp
  · rintro j (hj | rfl)
    · exact h.link j hj
    · refine ⟨hcomp, c, fun e he u hu => ?_⟩
      rw [hi] at he
      obtain rfl : [v] = e := by simpa using he
      obtain rfl : u = v := by simpa using hu
      exact hv
  · exact fun u w d hu hw => (h.conn u w d hu hw).mono fun _ => .inl
  · exact fun u hu j e he hm => .inl (h.inter u hu j e he hm)

end Plaquette
