import Verif.Lemmas.UFMerge

/-!
# Union find: boundaries after growth, open clusters, new edges
-/

namespace Plaquette

variable {g : UGraph} {L : Nat → Prop} {s : UState} {κ : Nat → Option Nat} {dp : Nat → Nat}

theorem otherEnd_eq {e : List Nat} {v : Nat} {o : Option Nat} (hwf : (∃ a, e = [a]) ∨ ∃ a b, e = [a, b] ∧ a ≠ b) :
    otherEnd v e = some o ↔ Inc e v o := by
  rcases hwf with ⟨a, rfl⟩ | ⟨a, b, rfl, hab⟩
  · show (if _ then _ else _ : Option (Option Nat)) = _ ↔ _
    constructor
    · intro h
      by_cases ha : a = v
      · subst ha; rw [if_pos rfl] at h
        obtain rfl : none = o := by simpa using h
        exact .single a
      · rw [if_neg ha] at h; simp at h
    · intro h; cases h; rw [if_pos rfl]
  · show (if _ then _ else _ : Option (Option Nat)) = _ ↔ _
    constructor
    · intro h
      by_cases ha : a = v
      · subst ha; rw [if_pos rfl] at h
        obtain rfl : some b = o := by simpa using h
        exact .left _ _ hab
      · rw [if_neg ha] at h
        by_cases hb : b = v
        · subst hb; rw [if_pos rfl] at h
          obtain rfl : some a = o := by simpa using h
          exact .right _ _ hab.symm
        · rw [if_neg hb] at h; simp at h
    · intro h
      cases h with
      | left _ _ _ => rw [if_pos rfl]
      | right _ _ hne => rw [if_neg hab, if_pos rfl]

theorem EdgesWf.cases {n : Nat} {edges : List (List Nat)} (h : EdgesWf n edges) {i : Nat} {e : List Nat} (he : edges[i]? = some e) :
    (∃ a, e = [a]) ∨ ∃ a b, e = [a, b] ∧ a ≠ b := by
  rcases h e (List.mem_of_getElem? he) with ⟨a, h, _⟩ | ⟨a, b, h, hab, _⟩
  · exact .inl ⟨a, h⟩
  · exact .inr ⟨a, b, h, hab⟩

theorem UGraph.mem_nbrs (hwf : EdgesWf g.n g.edges) {v i : Nat} {o : Option Nat} :
    (i, o) ∈ g.nbrs v ↔ ∃ e, g.edges[i]? = some e ∧ Inc e v o := by
  unfold UGraph.nbrs
  simp only [List.mem_filterMap, List.mem_range, Option.map_eq_some_iff, Option.bind_eq_some_iff, Prod.mk.injEq]
  constructor
  · rintro ⟨j, hj, o', ⟨e, he, ho⟩, rfl, rfl⟩
    exact ⟨e, he, (otherEnd_eq (hwf.cases he)).1 ho⟩
  · rintro ⟨e, he, hinc⟩
    exact ⟨i, (List.getElem?_eq_some_iff.1 he).1, o, ⟨e, he, (otherEnd_eq (hwf.cases he)).2 hinc⟩, rfl, rfl⟩

theorem UGraph.mem_edgesAt (hwf : EdgesWf g.n g.edges) {v i : Nat} :
    i ∈ g.edgesAt v ↔ ∃ e, g.edges[i]? = some e ∧ v ∈ e := by
  unfold UGraph.edgesAt
  rw [List.mem_map]
  constructor
  · rintro ⟨⟨j, o⟩, h, rfl⟩
    obtain ⟨e, he, hinc⟩ := (UGraph.mem_nbrs hwf).1 h
    exact ⟨e, he, hinc.mem⟩
  · rintro ⟨e, he, hv⟩
    obtain ⟨o, ho⟩ := hwf.inc (List.mem_of_getElem? he) hv
    exact ⟨(i, o), (UGraph.mem_nbrs hwf).2 ⟨e, he, ho⟩, rfl⟩

theorem UGraph.allComplete_iff (hwf : EdgesWf g.n g.edges) {v : Nat} :
    g.allComplete s v = true ↔ ∀ i e, g.edges[i]? = some e → v ∈ e → g.complete s i = true := by
  unfold UGraph.allComplete
  rw [List.all_eq_true]
  constructor
  · exact fun h i e he hv => h i ((UGraph.mem_edgesAt hwf).2 ⟨e, he, hv⟩)
  · intro h i hi
    obtain ⟨e, he, hv⟩ := (UGraph.mem_edgesAt hwf).1 hi
    exact h i e he hv

/-! ## `update_after_growth` -/

/-- The states after the loop over the boundary `B`. -/
def UGraph.inward (g : UGraph) (s : UState) (B : List Nat) : UState :=
  { s with state := fun v => if v ∈ B ∧ g.allComplete s v = true then .interior else s.state v }

theorem updateLoop : ∀ (B : List Nat) (s : UState) (acc : List Nat), B.Nodup → (∀ v ∈ B, s.state v = .boundary) →
    loopE g.updateVertex (s, acc) B = .ok (g.inward s B, acc ++ B.filter fun v => !g.allComplete s v) := by
  intro B
  induction B with
  | nil =>
    intro s acc _ _
    simp [loopE, UGraph.inward]
  | cons b B ih =>
    intro s acc hnd hst
    have hb := hst b (by simp)
    rw [List.nodup_cons] at hnd
    by_cases hc : g.allComplete s b = true
    · have h1 : g.updateVertex (s, acc) b = .ok ({ s with state := Function.update s.state b .interior }, acc) := by
        simp [UGraph.updateVertex, hc, UState.toInterior, hb]
      rw [loopE_step h1, ih _ _ hnd.2 ?_]
      · have h2 : ∀ v, g.allComplete { s with state := Function.update s.state b .interior } v = g.allComplete s v := fun v => rfl
        have h3 : (b :: B).filter (fun v => !g.allComplete s v) = B.filter fun v => !g.allComplete s v := by
          rw [List.filter_cons_of_neg (by simp [hc])]
        rw [h3]
        congr 2
        unfold UGraph.inward
        simp only [h2]
        congr 1
        funext v
        by_cases hv : v = b
        · subst hv; simp [hc]
        · simp [hv]
      · intro v hv
        have : v ≠ b := by rintro rfl; exact hnd.1 hv
        show Function.update s.state b .interior v = _
        rw [Function.update_of_ne this]
        exact hst v (List.mem_cons_of_mem _ hv)
    · have hc' : g.allComplete s b = false := by simpa using hc
      have h1 : g.updateVertex (s, acc) b = .ok (s, acc ++ [b]) := by
        simp [UGraph.updateVertex, hc']
      rw [loopE_step h1, ih _ _ hnd.2 (fun v hv => hst v (List.mem_cons_of_mem _ hv))]
      have h3 : (b :: B).filter (fun v => !g.allComplete s v) = b :: B.filter fun v => !g.allComplete s v := by
        rw [List.filter_cons_of_pos (by simp [hc'])]
      rw [h3, List.append_assoc]
      congr 2
      unfold UGraph.inward
      congr 1
      funext v
      by_cases hv : v = b
      · subst hv; simp [hc', hnd.1]
      · simp [hv]

/-- What `update_after_growth` of cluster `c` does. -/
theorem UInv.update (hwf : EdgesWf g.n g.edges) (h : UInv g L s κ dp) {c : Nat} (hc : c < s.nClusters)
    (hready : ∀ v, κ v = some c → ∀ i e, g.edges[i]? = some e → v ∈ e → g.complete s i = true → L i) :
    ∃ s', g.updateAfterGrowth s c = .ok s' ∧ UInv g L s' κ dp ∧ SameBase s s' ∧ s'.nClusters = s.nClusters ∧
      (∀ v, κ v ≠ some c → s'.state v = s.state v) ∧
      (∀ v, κ v = some c → s'.state v = .boundary → g.allComplete s v = false) := by
  rcases h.cl c hc with hd | ⟨r, B, hl⟩
  · exact ⟨s, by simp only [UGraph.updateAfterGrowth, hd.bnd], h, ⟨rfl, rfl⟩, rfl, fun _ _ => rfl, fun v hv => absurd hv (hd.none v)⟩
  · have hloop := updateLoop (g := g) B s [] hl.nodup (fun v hv => ((hl.mem v).1 hv).2)
    refine ⟨(g.inward s B).setCluster c { s.clusters c with boundary := some (B.filter fun v => !g.allComplete s v) }, ?_, ?_, ⟨rfl, rfl⟩,
      rfl, ?_, ?_⟩
    · simp only [UGraph.updateAfterGrowth, hl.bnd, hloop, List.nil_append]
      rfl
    · set s' := (g.inward s B).setCluster c { s.clusters c with boundary := some (B.filter fun v => !g.allComplete s v) } with hs'
      have hcc : s'.clusters c = { s.clusters c with boundary := some (B.filter fun v => !g.allComplete s v) } := Function.update_self _ _ _
      have hcl : ∀ d, d ≠ c → s'.clusters d = s.clusters d := fun d hd => Function.update_of_ne hd _ _
      have hst : ∀ v, s'.state v = if v ∈ B ∧ g.allComplete s v = true then .interior else s.state v := fun v => rfl
      have hroot : ∀ d, (s'.clusters d).root = (s.clusters d).root := by
        intro d; by_cases hd : d = c
        · subst hd; rw [hcc]
        · rw [hcl d hd]
      have hpar : ∀ d, (s'.clusters d).parity = (s.clusters d).parity := by
        intro d; by_cases hd : d = c
        · subst hd; rw [hcc]
        · rw [hcl d hd]
      have hop : ∀ d, (s'.clusters d).opened = (s.clusters d).opened := by
        intro d; by_cases hd : d = c
        · subst hd; rw [hcc]
        · rw [hcl d hd]
      have hPar : ∀ d, ParC g L s κ d → ParC g L s' κ d := by
        intro d hp
        unfold ParC at hp ⊢
        rw [hpar d]
        exact hp
      refine ⟨h.lt, ?_, h.free, ?_, h.up, h.depth, h.kc, ?_, h.onodup, ?_, ?_, h.link, h.conn, ?_⟩
      · intro v
        rw [hst]
        split
        · rename_i hv
          have := ((hl.mem v).1 hv.1).1
          rw [this]; simp
        · exact h.unused v
      · intro v d hv hp
        rw [hroot d]
        exact h.top v d hv hp
      · intro d hd
        by_cases hdc : d = c
        · subst hdc
          refine .inr ⟨r, _, by rw [hroot d]; exact hl.root, by rw [hcc], hl.kr, hl.pr, hl.dr, hl.nodup.filter _, ?_, hPar d hl.par⟩
          intro v
          rw [List.mem_filter, hl.mem, hst]
          by_cases hv : v ∈ B
          · have hv' := (hl.mem v).1 hv
            by_cases ha : g.allComplete s v = true
            · simp [hv, ha, hv']
            · simp [ha, hv']
          · have hv' : ¬ (κ v = some d ∧ s.state v = .boundary) := fun hh => hv ((hl.mem v).2 hh)
            rw [if_neg (by tauto)]
            tauto
        · rcases h.cl d hd with hx | ⟨r2, B2, hx⟩
          · exact .inl ⟨by rw [hcl d hdc]; exact hx.bnd, by rw [hcl d hdc]; exact hx.par, hx.none⟩
          · refine .inr ⟨r2, B2, by rw [hcl d hdc]; exact hx.root, by rw [hcl d hdc]; exact hx.bnd, hx.kr, hx.pr, hx.dr, hx.nodup, ?_,
              hPar d hx.par⟩
            intro v
            rw [hx.mem, hst]
            by_cases hv : κ v = some d
            · have : v ∉ B := by
                intro hb
                have := ((hl.mem v).1 hb).1.symm.trans hv
                exact hdc (by simpa using this.symm)
              rw [if_neg (by tauto)]
            · tauto
      · intro d; rw [hop d]; exact h.opens d
      · intro d hd hp; rw [hop d]; rw [hpar d] at hp; exact h.par1 d hd hp
      · intro v hv i e he hm
        rw [hst] at hv
        split at hv
        · rename_i hb
          have hk := ((hl.mem v).1 hb.1).1
          exact hready v hk i e he hm ((UGraph.allComplete_iff hwf).1 hb.2 i e he hm)
        · exact h.inter v hv i e he hm
    · intro v hv
      have : v ∉ B := fun hb => hv ((hl.mem v).1 hb).1
      show (if v ∈ B ∧ _ then _ else _) = _
      rw [if_neg (by tauto)]
    · intro v hv hb
      have hb : (if v ∈ B ∧ g.allComplete s v = true then UVState.interior else s.state v) = .boundary := hb
      by_cases ha : g.allComplete s v = true
      · exfalso
        split at hb
        · simp at hb
        · rename_i hn
          exact hn ⟨(hl.mem v).2 ⟨hv, hb⟩, ha⟩
      · simpa using ha

/-! ## `refresh_open_clusters` -/

/-- The clusters after the loop over the list `Os`. -/
def UState.closed (s : UState) (Os : List Nat) : UState :=
  { s with clusters := fun c => if c ∈ Os ∧ (s.clusters c).parity ≠ 1 then { s.clusters c with opened := false } else s.clusters c }

theorem refreshLoop : ∀ (Os : List Nat) (s : UState) (acc : List Nat), Os.Nodup → (∀ c ∈ Os, (s.clusters c).opened = true) →
    loopE UState.refreshStep (s, acc) Os = .ok (s.closed Os, acc ++ Os.filter fun c => decide ((s.clusters c).parity = 1)) := by
  intro Os
  induction Os with
  | nil => intro s acc _ _; simp [loopE, UState.closed]
  | cons c Os ih =>
    intro s acc hnd hop
    rw [List.nodup_cons] at hnd
    by_cases hp : (s.clusters c).parity = 1
    · have h1 : UState.refreshStep (s, acc) c = .ok (s, acc ++ [c]) := by simp [UState.refreshStep, hp]
      rw [loopE_step h1, ih _ _ hnd.2 (fun d hd => hop d (List.mem_cons_of_mem _ hd)), List.filter_cons_of_pos (by simp [hp]), List.append_assoc]
      congr 2
      unfold UState.closed
      congr 1
      funext d
      by_cases hd : d = c
      · subst hd; simp [hp]
      · simp [hd]
    · have h1 : UState.refreshStep (s, acc) c = .ok (s.setCluster c { s.clusters c with opened := false }, acc) := by
        simp [UState.refreshStep, hp, hop c (by simp)]
      have hcl : ∀ d, d ≠ c → (s.setCluster c { s.clusters c with opened := false }).clusters d = s.clusters d := fun d hd => Function.update_of_ne hd _ _
      have hcc : (s.setCluster c { s.clusters c with opened := false }).clusters c = { s.clusters c with opened := false } := Function.update_self _ _ _
      have hne : ∀ d ∈ Os, d ≠ c := by rintro d hd rfl; exact hnd.1 hd
      rw [loopE_step h1, ih _ _ hnd.2 (fun d hd => by rw [hcl d (hne d hd)]; exact hop d (List.mem_cons_of_mem _ hd)),
        List.filter_cons_of_neg (by simp [hp])]
      congr 2
      · unfold UState.closed
        have : ∀ d, (if d ∈ Os ∧ ((s.setCluster c { s.clusters c with opened := false }).clusters d).parity ≠ 1 then
              { (s.setCluster c { s.clusters c with opened := false }).clusters d with opened := false } else
              (s.setCluster c { s.clusters c with opened := false }).clusters d) =
            if d ∈ c :: Os ∧ (s.clusters d).parity ≠ 1 then { s.clusters d with opened := false } else s.clusters d := by
          intro d
          by_cases hd : d = c
          · subst hd; rw [hcc]; simp [hp, hnd.1]
          · rw [hcl d hd]; simp [hd]
        simp only [this]
        rfl
      · congr 1
        refine List.filter_congr fun d hd => ?_
        rw [hcl d (hne d hd)]

theorem UInv.refresh (h : UInv g L s κ dp) :
    ∃ s', s.refresh = .ok s' ∧ UInv g L s' κ dp ∧ SameBase s s' ∧ s'.state = s.state ∧ ∀ c ∈ s'.openList, (s'.clusters c).parity = 1 := by
  have hloop := refreshLoop s.openList s [] h.onodup (fun c hc => ((h.opens c).1 hc).2)
  have hroot : ∀ d, ((s.closed s.openList).clusters d).root = (s.clusters d).root := by
    intro d; show (if _ then _ else _ : UCluster).root = _; split <;> rfl
  have hbnd : ∀ d, ((s.closed s.openList).clusters d).boundary = (s.clusters d).boundary := by
    intro d; show (if _ then _ else _ : UCluster).boundary = _; split <;> rfl
  have hpar : ∀ d, ((s.closed s.openList).clusters d).parity = (s.clusters d).parity := by
    intro d; show (if _ then _ else _ : UCluster).parity = _; split <;> rfl
  refine ⟨{ s.closed s.openList with openList := s.openList.filter fun c => decide ((s.clusters c).parity = 1) }, ?_, ?_, ⟨rfl, rfl⟩, rfl, ?_⟩
  · simp only [UState.refresh, hloop, List.nil_append]
  · refine ⟨h.lt, h.unused, h.free, ?_, h.up, h.depth, h.kc, ?_, h.onodup.filter _, ?_, ?_, h.link, h.conn, h.inter⟩
    · intro v d hv hp
      show _ ∧ ((s.closed s.openList).clusters d).root = _
      rw [hroot d]
      exact h.top v d hv hp
    · intro d hd
      rcases h.cl d hd with hx | ⟨r2, B2, hx⟩
      · exact .inl ⟨(hbnd d).trans hx.bnd, (hpar d).trans hx.par, hx.none⟩
      · refine .inr ⟨r2, B2, (hroot d).trans hx.root, (hbnd d).trans hx.bnd, hx.kr, hx.pr, hx.dr, hx.nodup, hx.mem, ?_⟩
        rcases hx.par with ⟨h1, h2⟩ | ⟨h1, h2⟩
        · exact .inl ⟨(hpar d).trans h1, h2⟩
        · exact .inr ⟨(hpar d).trans h1, h2⟩
    · intro d
      show d ∈ s.openList.filter _ ↔ _ ∧ (if d ∈ s.openList ∧ (s.clusters d).parity ≠ 1 then { s.clusters d with opened := false } else s.clusters d).opened = true
      rw [List.mem_filter]
      by_cases hd : d ∈ s.openList
      · have := (h.opens d).1 hd
        by_cases hp : (s.clusters d).parity = 1
        · simp [hd, hp, this.2]; exact this.1
        · simp [hd, hp]
      · have := mt (h.opens d).2 hd
        simp only [hd, false_and, if_false, false_iff]
        exact this
    · intro d hd hp
      have hp : ((s.closed s.openList).clusters d).parity = 1 := hp
      rw [hpar d] at hp
      show (if d ∈ s.openList ∧ (s.clusters d).parity ≠ 1 then { s.clusters d with opened := false } else s.clusters d).opened = true
      rw [if_neg (by tauto)]
      exact h.par1 d hd hp
  · intro c hc
    have hc : c ∈ s.openList.filter fun c => decide ((s.clusters c).parity = 1) := hc
    show ((s.closed s.openList).clusters c).parity = 1
    rw [hpar c]
    exact of_decide_eq_true (List.mem_filter.1 hc).2

/-! ## New edges -/

/-- Unused vertices may have become boundary vertices, nothing else. -/
def Activated (s s' : UState) : Prop := ∀ v, s'.state v = s.state v ∨ (s.state v = .unused ∧ s'.state v = .boundary)

theorem UInv.join (h : UInv g L s κ dp) (hwf : EdgesWf g.n g.edges) {i v u : Nat} {e : List Nat} (he : g.edges[i]? = some e) (hinc : Inc e v (some u))
    (hL : ¬ L i) (hcomp : g.complete s i = true) (hb : s.state v = .boundary) (hsyn : ∀ v, s.syn v = true → s.state v ≠ .unused) :
    ∃ s' κ' dp', g.joinEdge s v u = .ok s' ∧ UInv g (fun j => L j ∨ j = i) s' κ' dp' ∧ SameBase s s' ∧ Activated s s' := by
  have hkv : κ v ≠ none := by rw [Ne, ← h.unused, hb]; simp
  obtain ⟨a, ha⟩ := Option.ne_none_iff_exists'.1 hkv
  obtain ⟨P, e1, h1⟩ := h.rCluster ha
  unfold UGraph.joinEdge
  rw [if_pos hb]
  cases hu : s.state u with
  | boundary =>
    have hku : κ u ≠ none := by rw [Ne, ← h.unused, hu]; simp
    obtain ⟨b, hb'⟩ := Option.ne_none_iff_exists'.1 hku
    obtain ⟨P2, e2, h2⟩ := h1.rCluster hb'
    obtain ⟨s', κ', dp', e3, h3, hbase, hst⟩ := h2.merge ha hb' he hinc hcomp
    refine ⟨s', κ', dp', ?_, h3, ⟨hbase.growth, hbase.syn⟩, fun w => .inl (by rw [hst])⟩
    simp only [e1, e2, if_true]
    exact e3
  | unused =>
    have hku := (h.unused u).1 hu
    have hsu : s.syn u = false := by
      by_contra hc
      exact hsyn u (by simpa using hc) hu
    obtain ⟨r, B, e2, h2⟩ := h1.addVertex ha hb hku (hwf.lt (List.mem_of_getElem? he) hinc.other_mem) he hinc hcomp (.inr hsu)
    refine ⟨_, _, _, ?_, h2, ⟨rfl, rfl⟩, fun w => ?_⟩
    · simp only [e1, if_true]
      exact e2
    · by_cases hw : w = u
      · subst hw; exact .inr ⟨hu, Function.update_self _ _ _⟩
      · exact .inl (Function.update_of_ne hw _ _)
  | interior => exact absurd (h.inter u hu i e he hinc.other_mem) hL

theorem UInv.handleEdge (h : UInv g L s κ dp) (hwf : EdgesWf g.n g.edges) {i : Nat} {e : List Nat} (he : g.edges[i]? = some e)
    (hL : ¬ L i) (hcomp : g.complete s i = true) (hb : ∃ v ∈ e, s.state v = .boundary) (hsyn : ∀ v, s.syn v = true → s.state v ≠ .unused) :
    ∃ s' κ' dp', g.handleEdge s i = .ok s' ∧ UInv g (fun j => L j ∨ j = i) s' κ' dp' ∧ SameBase s s' ∧ Activated s s' := by
  obtain ⟨v, hv, hb⟩ := hb
  rcases hwf.cases he with ⟨a, rfl⟩ | ⟨a, b, rfl, hab⟩
  · obtain rfl : v = a := by simpa using hv
    have hkv : κ v ≠ none := by rw [Ne, ← h.unused, hb]; simp
    obtain ⟨c, hc⟩ := Option.ne_none_iff_exists'.1 hkv
    obtain ⟨P, e1, h1⟩ := h.rCluster hc
    refine ⟨_, κ, dp, ?_, h1.dangling hc he hcomp, ⟨rfl, rfl⟩, fun w => .inl rfl⟩
    simp only [UGraph.handleEdge, he, hb, if_true, e1]
  · simp only [UGraph.handleEdge, he]
    by_cases hst : s.state a = .boundary
    · rw [if_pos hst]
      exact h.join hwf he (.left _ _ hab) hL hcomp hst hsyn
    · rw [if_neg hst]
      have : v = b := by
        simp only [List.mem_cons, List.not_mem_nil, or_false] at hv
        rcases hv with rfl | rfl
        · exact absurd hb hst
        · rfl
      subst this
      exact h.join hwf he (.right _ _ hab.symm) hL hcomp hb hsyn

end Plaquette
