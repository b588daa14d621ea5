import Verif.Lemmas.Visualizer
import Verif.Props.Weights
import Verif.Props.Fabrication

/-!
# Properties of the visualizer (C107)
-/

namespace Plaquette
variable {P : Type}

/-- A visualizer of a lattice whose indices are assigned. -/
structure Viz.Ok (v : Viz P) : Prop where
  indexed : v.lattice.Indexed
  order : v.order.Perm v.lattice.occupied
  data : v.order.filter (· ∈ v.lattice.dataqubits) = v.lattice.dataqubits
  probs : ∀ ps, v.probs = some ps → ps.length = v.lattice.dataqubits.length

/-- **C107** The list of the vertices of a lattice has the data qubits in the order of `dataqubits`, however vertices were added and
removed. -/
theorem C107_vertices {l : VLists} (h : l.Made) :
    l.vertices.Perm (l.data ++ l.stabs ++ l.logs) ∧ l.vertices.filter (· ∈ l.data) = l.data :=
  ⟨(VLists.made_ok h).perm, (VLists.made_ok h).data⟩

/-- A frame as the visualizer wants it: a list with one operator. -/
def oneFrame (f : Option FrameBits) : Option FrameArg := f.map fun f => .list [f]

/-- The argument `only_pauli`. -/
def onlyArg : Option Bool → Option (List Char)
  | none => none
  | some true => some ['X']
  | some false => some ['Z']

theorem onlyPauli_arg (o : Option Bool) : onlyPauli (onlyArg o) = .ok o := by
  match o with
  | none => rfl
  | some true => rfl
  | some false => rfl

theorem check_one (f : Option FrameBits) : FrameArg.check (oneFrame f) = .ok f.toList := by cases f <;> rfl

theorem vertGroup_data {L : Lattice} {syn : Option (List Bool)} {p : Pos} : vertGroup L syn p = .data ↔ p ∈ L.dataqubits := by
  unfold vertGroup
  split
  · simp_all
  · split <;> simp_all

theorem vertGroup_frame {L : Lattice} {syn : Option (List Bool)} {p : Pos} {c i : Bool} : vertGroup L syn p ≠ .frame c i := by
  unfold vertGroup
  split
  · simp
  · split <;> simp

theorem Lattice.Indexed.disjoint {L : Lattice} (h : L.Indexed) {p : Pos} (hp : p ∈ L.dataqubits) :
    p ∉ L.stabgens.map Prod.fst ∧ p ∉ L.logicals.map Prod.fst := by
  have := h.occ
  rw [Lattice.occupied, List.append_assoc, List.nodup_append] at this
  exact ⟨fun hc => this.2.2 p hp p (by simp only [List.mem_append]; exact .inl hc) rfl,
    fun hc => this.2.2 p hp p (by simp only [List.mem_append]; exact .inr hc) rfl⟩

theorem Lattice.Indexed.stabs_nodup {L : Lattice} (h : L.Indexed) : (L.stabgens.map Prod.fst).Nodup := by
  have := h.occ
  rw [Lattice.occupied, List.append_assoc, List.nodup_append] at this
  exact (List.nodup_append.mp this.2.1).1

theorem vertGroup_stab {L : Lattice} (hL : L.Indexed) {syn : Option (List Bool)} {p : Pos} {g : StabGroup} {b : Bool} :
    vertGroup L syn p = .stab g b ↔ ∃ j, L.stabgens[j]? = some (p, g) ∧ synBit syn j = b := by
  constructor
  · intro h
    unfold vertGroup at h
    split at h
    · cases h
    · split at h
      · rename_i g' hf
        cases h
        have hg : g'.1 = p := by simpa using List.find?_some hf
        obtain ⟨j, hj⟩ := List.mem_iff_getElem?.mp (List.mem_of_find?_eq_some hf)
        have := hL.stabIdx hj
        rw [hg] at this
        exact ⟨j, by rw [hj]; exact congrArg some (Prod.ext hg rfl), by rw [this]⟩
      · cases h
  · rintro ⟨j, hj, rfl⟩
    have hm : (p, g) ∈ L.stabgens := List.mem_iff_getElem?.mpr ⟨j, hj⟩
    have hd : p ∉ L.dataqubits := fun hc => (hL.disjoint hc).1 (List.mem_map.mpr ⟨_, hm, rfl⟩)
    unfold vertGroup
    rw [if_neg hd]
    cases hf : L.stabgens.find? fun g => g.1 = p with
    | none =>
      have := List.find?_eq_none.mp hf _ hm
      simp at this
    | some g' =>
      have hg : g'.1 = p := by simpa using List.find?_some hf
      have : g' = (p, g) := List.inj_on_of_nodup_map hL.stabs_nodup (List.mem_of_find?_eq_some hf) hm hg
      subst this
      have := hL.stabIdx hj
      dsimp only at this ⊢
      rw [this]

theorem vertGroup_log {L : Lattice} (hL : L.Indexed) {syn : Option (List Bool)} {p : Pos} (hp : p ∈ L.occupied) :
    vertGroup L syn p = .log ↔ p ∈ L.logicals.map Prod.fst := by
  have hocc := hL.occ
  rw [Lattice.occupied, List.append_assoc, List.nodup_append] at hocc
  have hsl := (List.nodup_append.mp hocc.2.1).2.2
  unfold vertGroup
  split
  · rename_i hd
    exact iff_of_false (by simp) fun hc => (hL.disjoint hd).2 hc
  · rename_i hd
    split
    · rename_i g hf
      have hg : g.1 = p := by simpa using List.find?_some hf
      refine iff_of_false (by simp) fun hc => hsl p ?_ p hc rfl
      exact List.mem_map.mpr ⟨g, List.mem_of_find?_eq_some hf, hg⟩
    · rename_i hf
      refine iff_of_true rfl ?_
      have hno : p ∉ L.stabgens.map Prod.fst := by
        intro hc
        obtain ⟨g, hg, hgp⟩ := List.mem_map.mp hc
        have := List.find?_eq_none.mp hf g hg
        simp [hgp] at this
      simp only [Lattice.occupied, List.mem_append] at hp
      tauto

/-- The markers that are expected in a figure of a syndrome, an error and a correction. `only` restricts the factors of the error and
of the correction; `stabs` says whether the operators of the code are drawn. -/
def Expected (L : Lattice) (syn : Option (List Bool)) (err corr : Option FrameBits) (only : Option Bool) (stabs : Bool) : VGroup → ℚ → ℚ → Prop
  | .data, x, y => ∃ p ∈ L.dataqubits, (p.1 : ℚ) = x ∧ (p.2 : ℚ) = y
  | .log, x, y => stabs = true ∧ ∃ p ∈ L.logicals.map Prod.fst, (p.1 : ℚ) = x ∧ (p.2 : ℚ) = y
  | .stab g b, x, y => stabs = true ∧ ∃ (j : Nat) (p : Pos), L.stabgens[j]? = some (p, g) ∧ synBit syn j = b ∧ (p.1 : ℚ) = x ∧ (p.2 : ℚ) = y
  | .frame c isX, x, y => (only = none ∨ only = some isX) ∧ ∃ f, (if c then corr else err) = some f ∧ ∃ (i : Nat) (p : Pos),
      L.dataqubits[i]? = some p ∧ f.part isX i = true ∧ (p.1 : ℚ) + (frameOffset c isX).1 = x ∧ (p.2 : ℚ) + (frameOffset c isX).2 = y

theorem mkFrameDf_ok {L : Lattice} {err corr : Option FrameBits} {only : Option Bool} (he : ∀ f, err = some f → f.On L.dataqubits.length)
    (hc : ∀ f, corr = some f → f.On L.dataqubits.length) :
    mkFrameDf L (oneFrame err) (oneFrame corr) (onlyArg only) =
      .ok (((err.toList.flatMap frameOps).filter fun e => shown only e.2).map (frameRow L false) ++
        ((corr.toList.flatMap frameOps).filter fun e => shown only e.2).map (frameRow L true)) := by
  have bound : ∀ {o : Option FrameBits}, (∀ f, o = some f → f.On L.dataqubits.length) →
      ∀ e ∈ o.toList.flatMap frameOps, e.1 < L.dataqubits.length := by
    intro o ho e hm
    obtain ⟨f, hf, hm⟩ := List.mem_flatMap.mp hm
    exact ((mem_frameOps (ho f (by simpa using hf))).mp hm).1
  unfold mkFrameDf
  rw [check_one, check_one, onlyPauli_arg]
  show (do let rows ← loopE (frameStep L false only) [] (err.toList.flatMap frameOps)
           loopE (frameStep L true only) rows (corr.toList.flatMap frameOps)) = _
  rw [frameLoop (bound he)]
  show loopE (frameStep L true only) _ (corr.toList.flatMap frameOps) = _
  rw [frameLoop (bound hc)]
  simp

theorem mem_frameRows {L : Lattice} {o : Option FrameBits} {only : Option Bool} {c : Bool} (ho : ∀ f, o = some f → f.On L.dataqubits.length)
    {g : VGroup} {x y : ℚ} :
    (∃ r ∈ ((o.toList.flatMap frameOps).filter fun e => shown only e.2).map (frameRow L c), r.group = g ∧ r.x = x ∧ r.y = y) ↔
      ∃ isX, g = .frame c isX ∧ (only = none ∨ only = some isX) ∧ ∃ f, o = some f ∧ ∃ (i : Nat) (p : Pos),
        L.dataqubits[i]? = some p ∧ f.part isX i = true ∧ (p.1 : ℚ) + (frameOffset c isX).1 = x ∧ (p.2 : ℚ) + (frameOffset c isX).2 = y := by
  have hshown : ∀ isX, shown only isX = true ↔ only = none ∨ only = some isX := by
    intro isX
    cases only <;> simp [shown]
  constructor
  · rintro ⟨r, hr, rfl, rfl, rfl⟩
    obtain ⟨e, he, rfl⟩ := List.mem_map.mp hr
    obtain ⟨he, hsh⟩ := List.mem_filter.mp he
    obtain ⟨f, hf, hm⟩ := List.mem_flatMap.mp he
    have hof : o = some f := by simpa using hf
    obtain ⟨hi, hp⟩ := (mem_frameOps (ho f hof)).mp hm
    refine ⟨e.2, rfl, (hshown _).mp hsh, f, hof, e.1, _, List.getElem?_eq_getElem hi, hp, ?_, ?_⟩ <;>
      simp [frameRow, List.getElem?_eq_getElem hi]
  · rintro ⟨isX, rfl, hsh, f, rfl, i, p, hi, hp, rfl, rfl⟩
    have hlt := (List.getElem?_eq_some_iff.mp hi).1
    refine ⟨frameRow L c (i, isX), List.mem_map.mpr ⟨(i, isX), List.mem_filter.mpr ⟨List.mem_flatMap.mpr ⟨f, by simp, ?_⟩, (hshown _).mpr hsh⟩, rfl⟩,
      rfl, ?_, ?_⟩
    · exact (mem_frameOps (ho f rfl)).mpr ⟨hlt, hp⟩
    · simp [frameRow, hi]
    · simp [frameRow, hi]

/-- The rows that are drawn. -/
theorem Viz.rows_ok (text : P → List Char) {v : Viz P} (hv : v.Ok) (hne : v.order ≠ []) {syn : Option (List Bool)}
    (hs : ∀ bits, syn = some bits → bits.length = v.lattice.stabgens.length) {err corr : Option FrameBits} {only : Option Bool}
    (he : ∀ f, err = some f → f.On v.lattice.dataqubits.length) (hc : ∀ f, corr = some f → f.On v.lattice.dataqubits.length)
    (stabs edges : Bool) :
    v.rows text syn (oneFrame err) (oneFrame corr) (onlyArg only) stabs edges =
      .ok ((if stabs then vertRows text v.lattice v.probs syn 0 v.order
          else (vertRows text v.lattice v.probs syn 0 v.order).filter fun r => r.group = .data) ++
        (((err.toList.flatMap frameOps).filter fun e => shown only e.2).map (frameRow v.lattice false) ++
        ((corr.toList.flatMap frameOps).filter fun e => shown only e.2).map (frameRow v.lattice true)),
        if edges then edgeRows v.lattice else []) := by
  have hdf : mkDf text v.lattice v.order v.probs syn = .ok (vertRows text v.lattice v.probs syn 0 v.order, edgeRows v.lattice) := by
    have hl := vertLoop (text := text) hv.indexed (probs := v.probs) (syndrome := syn) ⟨hv.probs, hs⟩ (order := v.order) (i := 0) (rows := [])
      (fun p hp => hv.order.mem_iff.mp hp) (by rw [hv.data]; omega)
    unfold mkDf
    cases hsy : syn with
    | none =>
      rw [hsy] at hl
      dsimp only
      rw [hl]; rfl
    | some bits =>
      rw [hsy] at hl
      dsimp only
      rw [if_neg (not_not.mpr (hs bits hsy)), hl]; rfl
  unfold Viz.rows
  rw [hdf]
  show (if _ then _ else _) = _
  have hemp : (vertRows text v.lattice v.probs syn 0 v.order).isEmpty = false := by
    cases ho : v.order with
    | nil => exact absurd ho hne
    | cons p ps => rfl
  rw [if_neg (by simp [hemp]), mkFrameDf_ok he hc]
  rfl

/-- **C107** What `draw_latticedata` draws, for frames given as lists with one operator and lattices without edges `Y`: exactly the
expected markers. The visualizer is as before. (Missing: frames given as they are returned by the decoders; lattices with edges `Y`.) -/
theorem C107_markers_partial (text : P → List Char) {v : Viz P} (hv : v.Ok) (hst : v.stored = false) (hne : v.order ≠ [])
    (hY : ∀ e ∈ v.lattice.edges, e.factor ≠ .Y) {syn : Option (List Bool)}
    (hs : ∀ bits, syn = some bits → bits.length = v.lattice.stabgens.length) {err corr : Option FrameBits} {only : Option Bool}
    (he : ∀ f, err = some f → f.On v.lattice.dataqubits.length) (hc : ∀ f, corr = some f → f.On v.lattice.dataqubits.length)
    (grey stabs edges : Bool) :
    ∃ fig, v.drawData text syn (oneFrame err) (oneFrame corr) (onlyArg only) grey stabs edges = (.ok fig, v) ∧ fig.grey = grey ∧
      ∀ g x y, fig.HasMark g x y ↔ Expected v.lattice syn err corr only stabs g x y := by
  have hrows := Viz.rows_ok text hv hne hs (only := only) he hc stabs edges
  have hEd : ∀ e ∈ (if edges then edgeRows v.lattice else []), e.1 ≠ .Y := by
    intro e hm
    split at hm
    · obtain ⟨e', he', hm⟩ := List.mem_flatMap.mp hm
      have := hY e' he'
      simp only [List.mem_cons, List.not_mem_nil, or_false] at hm
      rcases hm with rfl | rfl | rfl <;> exact this
    · simp at hm
  obtain ⟨fig, hfig, hgrey, hmark, -⟩ := drawFig_ok (probs := v.probs) (grey := grey) (vs := _) hEd
  refine ⟨fig, ?_, hgrey, fun g x y => ?_⟩
  · unfold Viz.drawData
    rw [hrows]
    dsimp only
    cases grey with
    | true =>
      rw [if_pos rfl, hst, if_neg Bool.false_ne_true, hfig]
    | false =>
      rw [if_neg Bool.false_ne_true, hst, hfig]
  · rw [hmark g x y]
    simp only [List.mem_append, or_and_right, exists_or]
    rw [mem_frameRows he, mem_frameRows hc]
    have hvert : (∃ r ∈ (if stabs then vertRows text v.lattice v.probs syn 0 v.order
          else (vertRows text v.lattice v.probs syn 0 v.order).filter fun r => r.group = .data), r.group = g ∧ r.x = x ∧ r.y = y) ↔
        (stabs = true ∨ g = .data) ∧ ∃ p ∈ v.lattice.occupied, vertGroup v.lattice syn p = g ∧ (p.1 : ℚ) = x ∧ (p.2 : ℚ) = y := by
      have hperm : (∃ p ∈ v.order, vertGroup v.lattice syn p = g ∧ (p.1 : ℚ) = x ∧ (p.2 : ℚ) = y) ↔
          ∃ p ∈ v.lattice.occupied, vertGroup v.lattice syn p = g ∧ (p.1 : ℚ) = x ∧ (p.2 : ℚ) = y :=
        ⟨fun ⟨p, h1, h2⟩ => ⟨p, hv.order.mem_iff.mp h1, h2⟩, fun ⟨p, h1, h2⟩ => ⟨p, hv.order.mem_iff.mpr h1, h2⟩⟩
      rw [← hperm, ← mem_vertRows (text := text) (probs := v.probs) (i := 0)]
      cases stabs with
      | true => simp
      | false =>
        simp only [Bool.false_eq_true, if_false, false_or, List.mem_filter, decide_eq_true_eq]
        constructor
        · rintro ⟨r, ⟨h1, h2⟩, h3, h4⟩; exact ⟨h3 ▸ h2, r, h1, h3, h4⟩
        · rintro ⟨rfl, r, h1, h3, h4⟩; exact ⟨r, ⟨h1, h3⟩, h3, h4⟩
    rw [hvert]
    have hocc : ∀ p, p ∈ v.lattice.occupied ↔ p ∈ v.lattice.dataqubits ∨ p ∈ v.lattice.stabgens.map Prod.fst ∨ p ∈ v.lattice.logicals.map Prod.fst := by
      intro p; simp only [Lattice.occupied, List.mem_append, or_assoc]
    cases g with
    | data =>
      simp only [Expected, vertGroup_data, reduceCtorEq, false_and, exists_false, or_false, or_true, true_and]
      constructor
      · rintro ⟨p, -, hp, hxy⟩; exact ⟨p, hp, hxy⟩
      · rintro ⟨p, hp, hxy⟩; exact ⟨p, (hocc p).mpr (.inl hp), hp, hxy⟩
    | log =>
      simp only [Expected, reduceCtorEq, false_and, exists_false, or_false]
      refine and_congr_right fun _ => ?_
      constructor
      · rintro ⟨p, h1, hp, hxy⟩; exact ⟨p, (vertGroup_log hv.indexed h1).mp hp, hxy⟩
      · rintro ⟨p, hp, hxy⟩
        have h1 := (hocc p).mpr (.inr (.inr hp))
        exact ⟨p, h1, (vertGroup_log hv.indexed h1).mpr hp, hxy⟩
    | stab g b =>
      simp only [Expected, reduceCtorEq, false_and, exists_false, or_false]
      refine and_congr_right fun _ => ?_
      constructor
      · rintro ⟨p, h1, hp, hxy⟩
        obtain ⟨j, hj, hb⟩ := (vertGroup_stab hv.indexed).mp hp
        exact ⟨j, p, hj, hb, hxy⟩
      · rintro ⟨j, p, hj, hb, hxy⟩
        refine ⟨p, (hocc p).mpr (.inr (.inl ?_)), (vertGroup_stab hv.indexed).mpr ⟨j, hj, hb⟩, hxy⟩
        exact List.mem_map.mpr ⟨_, List.mem_iff_getElem?.mpr ⟨j, hj⟩, rfl⟩
    | frame c isX =>
      have hno : ¬ ∃ p ∈ v.lattice.occupied, vertGroup v.lattice syn p = .frame c isX ∧ (p.1 : ℚ) = x ∧ (p.2 : ℚ) = y := by
        rintro ⟨p, -, hp, -⟩; exact vertGroup_frame hp
      simp only [hno, and_false, false_or, Expected, VGroup.frame.injEq]
      cases c with
      | false =>
        simp only [true_and, Bool.false_eq_true, if_false, false_and, exists_false, or_false]
        constructor
        · rintro ⟨i, rfl, h⟩; exact h
        · intro h; exact ⟨isX, rfl, h⟩
      | true =>
        simp only [Bool.true_eq_false, false_and, exists_false, false_or, true_and, if_true]
        constructor
        · rintro ⟨i, rfl, h⟩; exact h
        · intro h; exact ⟨isX, rfl, h⟩

/-- **C107** The lattices of the library, also after fabrication errors, have no edges `Y`: every figure of them can be drawn. -/
theorem C107_library_partial (text : P → List Char) {v : Viz P} (hv : v.Ok) (hf : v.lattice.Fabricated) (hst : v.stored = false)
    (hne : v.order ≠ []) {syn : Option (List Bool)}
    (hs : ∀ bits, syn = some bits → bits.length = v.lattice.stabgens.length) {err corr : Option FrameBits} {only : Option Bool}
    (he : ∀ f, err = some f → f.On v.lattice.dataqubits.length) (hc : ∀ f, corr = some f → f.On v.lattice.dataqubits.length)
    (grey stabs edges : Bool) :
    ∃ fig, v.drawData text syn (oneFrame err) (oneFrame corr) (onlyArg only) grey stabs edges = (.ok fig, v) ∧
      ∀ g x y, fig.HasMark g x y ↔ Expected v.lattice syn err corr only stabs g x y := by
  obtain ⟨fig, h1, -, h2⟩ := C107_markers_partial text hv hst hne (fabricated_good hf).2.2.1 hs (only := only) he hc grey stabs edges
  exact ⟨fig, h1, h2⟩

/-! ### Reading a figure -/

theorem frameOffset_int {a b : Int} {c i c' i' : Bool} (h1 : (a : ℚ) + (frameOffset c i).1 = b + (frameOffset c' i').1) : i = i' ∧ a = b := by
  have key : ∀ {q : ℚ}, (a : ℚ) = b + q → ∃ k : Int, q = k := fun {q} h => ⟨a - b, by push_cast; linarith⟩
  have no : ∀ k : Int, (k : ℚ) ≠ 3 / 10 := by
    intro k hk
    have : (k * 10 : ℚ) = 3 := by rw [hk]; norm_num
    have : k * 10 = 3 := by exact_mod_cast this
    omega
  have no' : ∀ k : Int, (k : ℚ) ≠ -3 / 10 := by
    intro k hk
    have : (k * 10 : ℚ) = -3 := by rw [hk]; norm_num
    have : k * 10 = -3 := by exact_mod_cast this
    omega
  cases c <;> cases i <;> cases c' <;> cases i' <;> simp only [frameOffset] at h1 <;>
    first
    | exact ⟨rfl, by exact_mod_cast add_right_cancel h1⟩
    | (exfalso; have hq : (a : ℚ) = b + 3 / 10 := (by linarith); obtain ⟨k, hk⟩ := key hq; exact no k hk.symm)
    | (exfalso; have hq : (a : ℚ) = b + -3 / 10 := (by linarith); obtain ⟨k, hk⟩ := key hq; exact no' k hk.symm)

theorem frameOffset_int' {a b : Int} {c i c' i' : Bool} (h1 : (a : ℚ) + (frameOffset c i).2 = b + (frameOffset c' i').2) : c = c' ∧ a = b := by
  have key : ∀ {q : ℚ}, (a : ℚ) = b + q → ∃ k : Int, q = k := fun {q} h => ⟨a - b, by push_cast; linarith⟩
  have no : ∀ k : Int, (k : ℚ) ≠ 3 / 10 := by
    intro k hk
    have : (k * 10 : ℚ) = 3 := by rw [hk]; norm_num
    have : k * 10 = 3 := by exact_mod_cast this
    omega
  have no' : ∀ k : Int, (k : ℚ) ≠ -3 / 10 := by
    intro k hk
    have : (k * 10 : ℚ) = -3 := by rw [hk]; norm_num
    have : k * 10 = -3 := by exact_mod_cast this
    omega
  cases c <;> cases i <;> cases c' <;> cases i' <;> simp only [frameOffset] at h1 <;>
    first
    | exact ⟨rfl, by exact_mod_cast add_right_cancel h1⟩
    | (exfalso; have hq : (a : ℚ) = b + 3 / 10 := (by linarith); obtain ⟨k, hk⟩ := key hq; exact no k hk.symm)
    | (exfalso; have hq : (a : ℚ) = b + -3 / 10 := (by linarith); obtain ⟨k, hk⟩ := key hq; exact no' k hk.symm)

theorem frameOffset_vert {a b : Int} {c i : Bool} (h1 : (a : ℚ) + (frameOffset c i).1 = b) : False := by
  have no : ∀ k : Int, (k : ℚ) ≠ 15 / 100 := by
    intro k hk
    have : (k * 20 : ℚ) = 3 := by rw [hk]; norm_num
    have : k * 20 = 3 := by exact_mod_cast this
    omega
  have no' : ∀ k : Int, (k : ℚ) ≠ -15 / 100 := by
    intro k hk
    have : (k * 20 : ℚ) = -3 := by rw [hk]; norm_num
    have : k * 20 = -3 := by exact_mod_cast this
    omega
  have h2 : ((b - a : Int) : ℚ) = (frameOffset c i).1 := by push_cast; linarith
  cases c <;> cases i <;> simp only [frameOffset] at h2 <;> first | exact no _ h2 | exact no' _ h2

/-- **C107** No two markers of different kinds are at the same position. -/
theorem C107_separate {L : Lattice} (hL : L.Indexed) {syn : Option (List Bool)} {err corr : Option FrameBits} {only : Option Bool} {stabs : Bool}
    {g g' : VGroup} {x y : ℚ} (h : Expected L syn err corr only stabs g x y) (h' : Expected L syn err corr only stabs g' x y) : g = g' := by
  have hposeq : ∀ {p p' : Pos}, (p.1 : ℚ) = x → (p.2 : ℚ) = y → (p'.1 : ℚ) = x → (p'.2 : ℚ) = y → p = p' := by
    intro p p' h1 h2 h3 h4
    have e1 : (p.1 : ℚ) = p'.1 := h1.trans h3.symm
    have e2 : (p.2 : ℚ) = p'.2 := h2.trans h4.symm
    exact Prod.ext (by exact_mod_cast e1) (by exact_mod_cast e2)
  have hocc := hL.occ
  rw [Lattice.occupied, List.append_assoc, List.nodup_append] at hocc
  have hsl := (List.nodup_append.mp hocc.2.1).2.2
  have hstab : ∀ {j : Nat} {p : Pos} {g : StabGroup}, L.stabgens[j]? = some (p, g) → p ∈ L.stabgens.map Prod.fst :=
    fun hj => List.mem_map.mpr ⟨_, List.mem_iff_getElem?.mpr ⟨_, hj⟩, rfl⟩
  -- a vertex marker and a frame marker are never at the same position
  have hvf : ∀ {p : Pos} {c i : Bool}, (p.1 : ℚ) = x → ¬ Expected L syn err corr only stabs (.frame c i) x y := by
    rintro p c i hx ⟨-, f, -, k, q, -, -, hx', -⟩
    exact frameOffset_vert (hx'.trans hx.symm)
  match g, g', h, h' with
  | .data, .data, _, _ => rfl
  | .log, .log, _, _ => rfl
  | .data, .log, ⟨p, hp, h1, h2⟩, ⟨_, p', hp', h3, h4⟩ => exact absurd (hposeq h3 h4 h1 h2 ▸ hp') (hL.disjoint hp).2
  | .log, .data, ⟨_, p', hp', h3, h4⟩, ⟨p, hp, h1, h2⟩ => exact absurd (hposeq h3 h4 h1 h2 ▸ hp') (hL.disjoint hp).2
  | .data, .stab g b, ⟨p, hp, h1, h2⟩, ⟨_, j, p', hj, _, h3, h4⟩ => exact absurd (hposeq h3 h4 h1 h2 ▸ hstab hj) (hL.disjoint hp).1
  | .stab g b, .data, ⟨_, j, p', hj, _, h3, h4⟩, ⟨p, hp, h1, h2⟩ => exact absurd (hposeq h3 h4 h1 h2 ▸ hstab hj) (hL.disjoint hp).1
  | .log, .stab g b, ⟨_, p, hp, h1, h2⟩, ⟨_, j, p', hj, _, h3, h4⟩ => exact absurd (hposeq h3 h4 h1 h2) (hsl _ (hstab hj) _ hp)
  | .stab g b, .log, ⟨_, j, p', hj, _, h3, h4⟩, ⟨_, p, hp, h1, h2⟩ => exact absurd (hposeq h3 h4 h1 h2) (hsl _ (hstab hj) _ hp)
  | .stab g b, .stab g' b', ⟨_, j, p, hj, hb, h1, h2⟩, ⟨_, j', p', hj', hb', h3, h4⟩ =>
    obtain rfl := hposeq h1 h2 h3 h4
    have e1 : L.stabIdx p = j := hL.stabIdx hj
    have e2 : L.stabIdx p = j' := hL.stabIdx hj'
    have e := e1.symm.trans e2
    subst e
    rw [hj] at hj'
    cases hj'
    rw [← hb, ← hb']
  | .data, .frame c i, ⟨p, _, h1, _⟩, h' => exact absurd h' (hvf h1)
  | .frame c i, .data, h', ⟨p, _, h1, _⟩ => exact absurd h' (hvf h1)
  | .log, .frame c i, ⟨_, p, _, h1, _⟩, h' => exact absurd h' (hvf h1)
  | .frame c i, .log, h', ⟨_, p, _, h1, _⟩ => exact absurd h' (hvf h1)
  | .stab g b, .frame c i, ⟨_, j, p, _, _, h1, _⟩, h' => exact absurd h' (hvf h1)
  | .frame c i, .stab g b, h', ⟨_, j, p, _, _, h1, _⟩ => exact absurd h' (hvf h1)
  | .frame c i, .frame c' i', ⟨_, f, _, k, p, _, _, h1, h2⟩, ⟨_, f', _, k', p', _, _, h3, h4⟩ =>
    rw [(frameOffset_int (h1.trans h3.symm)).1, (frameOffset_int' (h2.trans h4.symm)).1]

/-- **C107** A figure with all factors and the operators of the code tells the syndrome, the error and the correction: if the expected
markers are the same, the bits are the same. -/
theorem C107_read {L : Lattice} (hL : L.Indexed) {syn syn' : List Bool} {err corr err' corr' : FrameBits}
    (h : ∀ g x y, Expected L (some syn) (some err) (some corr) none true g x y ↔ Expected L (some syn') (some err') (some corr') none true g x y) :
    (∀ j < L.stabgens.length, synBit (some syn) j = synBit (some syn') j) ∧
    ∀ i < L.dataqubits.length, ∀ isX, err.part isX i = err'.part isX i ∧ corr.part isX i = corr'.part isX i := by
  have hdn : L.dataqubits.Nodup := by
    have := hL.occ
    rw [Lattice.occupied, List.append_assoc, List.nodup_append] at this
    exact this.1
  refine ⟨fun j hj => ?_, fun i hi isX => ?_⟩
  · have hj' := List.getElem?_eq_getElem hj
    obtain ⟨-, j', p, hp, hb, h1, h2⟩ := (h (.stab L.stabgens[j].2 (synBit (some syn) j)) L.stabgens[j].1.1 L.stabgens[j].1.2).mp
      ⟨rfl, j, L.stabgens[j].1, hj', rfl, rfl, rfl⟩
    have e : p = L.stabgens[j].1 := Prod.ext (by exact_mod_cast h1) (by exact_mod_cast h2)
    have e1 := hL.stabIdx hp
    have e2 := hL.stabIdx hj'
    dsimp only at e1
    rw [e, e2] at e1
    subst e1
    exact hb.symm
  · have hi' := List.getElem?_eq_getElem hi
    have side : ∀ (c : Bool) (a a' b b' : FrameBits),
        (∀ x y, Expected L (some syn) (some a) (some b) none true (.frame c isX) x y → Expected L (some syn') (some a') (some b') none true (.frame c isX) x y) →
        (if c then b else a).part isX i = true → (if c then b' else a').part isX i = true := by
      intro c a a' b b' hh hp
      obtain ⟨-, f, hf, k, p, hk, hpart, h1, h2⟩ := hh (L.dataqubits[i].1 + (frameOffset c isX).1) (L.dataqubits[i].2 + (frameOffset c isX).2)
        ⟨.inl rfl, (if c then b else a), by cases c <;> rfl, i, L.dataqubits[i], hi', hp, rfl, rfl⟩
      have e : p = L.dataqubits[i] := Prod.ext (frameOffset_int h1).2 (frameOffset_int' h2).2
      rw [e] at hk
      have hki : k = i := by
        obtain ⟨hk1, hk2⟩ := List.getElem?_eq_some_iff.mp hk
        exact (hdn.getElem_inj_iff).mp hk2
      subst hki
      have : f = if c then b' else a' := by cases c <;> simpa using hf.symm
      rw [← this]; exact hpart
    constructor
    · refine Bool.eq_iff_iff.mpr ⟨fun hp => ?_, fun hp => ?_⟩
      · exact side false err err' corr corr' (fun x y => (h _ x y).mp) hp
      · refine side false err' err corr' corr (fun x y hx => ?_) hp
        obtain ⟨a, f, hf, r⟩ := (h (.frame false isX) x y).mpr (by
          obtain ⟨a, f, hf, r⟩ := hx
          exact ⟨a, f, hf, r⟩)
        exact ⟨a, f, hf, r⟩
    · refine Bool.eq_iff_iff.mpr ⟨fun hp => ?_, fun hp => ?_⟩
      · exact side true err err' corr corr' (fun x y => (h _ x y).mp) hp
      · refine side true err' err corr' corr (fun x y hx => ?_) hp
        obtain ⟨a, f, hf, r⟩ := (h (.frame true isX) x y).mpr (by
          obtain ⟨a, f, hf, r⟩ := hx
          exact ⟨a, f, hf, r⟩)
        exact ⟨a, f, hf, r⟩

/-! ### The colours of the data qubits -/

theorem dataHover_some (text : P → List Char) (L : Lattice) (p : Pos) (v : P) :
    dataHover text L p (some v) = "Data qubit ".toList ++ Nat.toDigits 10 (L.idx p) ++ "<br />Ext. qubit ".toList ++
      Nat.toDigits 10 (L.idx p) ++ "<br />p = ".toList ++ text v := rfl

/-- **C107** With probabilities, the colours of the markers of the data qubits are the probabilities, marker `i` is at the position of
data qubit `i`, and its text has the number and the probability of data qubit `i`. -/
theorem C107_colours_partial (text : P → List Char) {v : Viz P} (hv : v.Ok) (hY : ∀ e ∈ v.lattice.edges, e.factor ≠ .Y) {ps : List P}
    (hps : v.probs = some ps) (hne : v.lattice.dataqubits ≠ []) :
    ∃ fig rows, v.drawLattice text = .ok fig ∧ (VGroup.data, some ps, rows) ∈ fig.marks ∧ rows.length = ps.length ∧
      ∀ (i : Nat) (p : Pos) (q : P), v.lattice.dataqubits[i]? = some p → ps[i]? = some q →
        rows[i]? = some ⟨p.1, p.2, .data, "Data qubit ".toList ++ Nat.toDigits 10 i ++ "<br />Ext. qubit ".toList ++ Nat.toDigits 10 i ++
          "<br />p = ".toList ++ text q⟩ := by
  have hl := vertLoop (text := text) hv.indexed (probs := v.probs) (syndrome := none) ⟨hv.probs, by simp⟩ (order := v.order) (i := 0) (rows := [])
    (fun p hp => hv.order.mem_iff.mp hp) (by rw [hv.data]; omega)
  have hEd : ∀ e ∈ edgeRows v.lattice, e.1 ≠ .Y := by
    intro e hm
    obtain ⟨e', he', hm⟩ := List.mem_flatMap.mp hm
    have := hY e' he'
    simp only [List.mem_cons, List.not_mem_nil, or_false] at hm
    rcases hm with rfl | rfl | rfl <;> exact this
  obtain ⟨fig, hfig, -, hmark, hrows, -⟩ := drawFig_ok (probs := v.probs) (grey := v.stored)
    (vs := vertRows text v.lattice v.probs none 0 v.order) hEd
  have hdraw : v.drawLattice text = .ok fig := by
    unfold Viz.drawLattice mkDf
    dsimp only
    rw [hl]
    exact hfig
  obtain ⟨p0, hp0⟩ := List.exists_mem_of_ne_nil _ hne
  obtain ⟨m, hm, hg, -⟩ := (hmark .data p0.1 p0.2).mpr (mem_vertRows.mpr ⟨p0, hv.order.mem_iff.mpr (by simp [Lattice.occupied, hp0]),
    vertGroup_data.mpr hp0, rfl, rfl⟩)
  obtain ⟨h1, h2⟩ := hrows m hm
  rw [hg, if_pos rfl, hps] at h2
  rw [hg, vertRows_data, hv.data] at h1
  refine ⟨fig, m.2.2, hdraw, ?_, ?_, fun i p q hp hq => ?_⟩
  · rw [← h2, ← hg]; exact hm
  · rw [h1, List.length_map, List.length_zipIdx, hv.probs ps hps]
  · have hidx : v.lattice.idx p = i := hv.indexed.idx (by
      rw [hv.indexed.equbits, Lattice.occupied, List.append_assoc, List.getElem?_append_left (List.getElem?_eq_some_iff.mp hp).1]
      exact hp)
    rw [h1, List.getElem?_map, List.getElem?_zipIdx, hp, hps]
    simp only [Option.map_some, Nat.zero_add, Option.bind_some, hq]
    rw [dataHover_some, hidx]

/-! ### What does not work -/

/-- **C107** as annotated: `error` and `correction` are Pauli operators, such as those returned by the decoders. -/
def C107_statement : Prop :=
  ∀ (text : ℚ → List Char) (v : Viz ℚ), v.Ok → v.stored = false → (∀ e ∈ v.lattice.edges, e.factor ≠ .Y) →
    ∀ f : FrameBits, f.On v.lattice.dataqubits.length → ∃ fig v', v.drawData text none none (some (.bare f)) none true true true = (.ok fig, v')

/-- The vertices of the example, in the order in which they are added. -/
def rep3Viz : Viz ℚ := ⟨(rep3Lat 2).lattice, (rep3Lat 2).lattice.occupied, none, false⟩

theorem rep3Viz_ok : rep3Viz.Ok :=
  ⟨(Made.codeOk (.repetition (by norm_num) (rep3Lat_made 2))).indexed, List.Perm.refl _, by decide +kernel, by intro ps h; cases h⟩

/-- **C107** A Pauli operator raises an `AssertionError` (the example `examples/quickstart.py` does this). -/
theorem C107_bare_counterexample : ¬ C107_statement := by
  intro h
  obtain ⟨fig, v', hf⟩ := h (fun _ => []) rep3Viz rep3Viz_ok rfl (by decide +kernel) ⟨[false, false, false], [false, false, false]⟩ ⟨rfl, rfl⟩
  have : (match (rep3Viz.drawData (fun _ => []) none none (some (.bare ⟨[false, false, false], [false, false, false]⟩)) none true true true).1 with
    | .ok _ => true | .error _ => false) = false := by decide +kernel
  rw [hf] at this
  cases this

/-- **C107** as documented: with `draw_stabs=False` the markers of the stabilisers are left out (and nothing else). -/
def C107_stabs_statement : Prop :=
  ∀ (text : ℚ → List Char) (v : Viz ℚ), v.Ok → v.stored = false → (∀ e ∈ v.lattice.edges, e.factor ≠ .Y) → ∀ fig,
    (v.drawData text none none none none true false true).1 = .ok fig → ∀ p ∈ v.lattice.logicals.map Prod.fst, fig.HasMark .log p.1 p.2

/-- **C107** The markers of the logical operators are left out as well. -/
theorem C107_stabs_counterexample : ¬ C107_stabs_statement := by
  intro h
  obtain ⟨fig, hf, -, hm⟩ := C107_markers_partial (fun _ : ℚ => []) rep3Viz_ok rfl (by decide +kernel) (by decide +kernel) (syn := none) (by simp)
    (err := none) (corr := none) (only := none) (by simp) (by simp) true false true
  have hne : ∃ p, p ∈ rep3Viz.lattice.logicals.map Prod.fst := by
    have : (rep3Viz.lattice.logicals.map Prod.fst) ≠ [] := by decide +kernel
    exact List.exists_mem_of_ne_nil _ this
  obtain ⟨p, hp⟩ := hne
  have := h (fun _ => []) rep3Viz rep3Viz_ok rfl (by decide +kernel) fig (by rw [show (none : Option FrameArg) = oneFrame none from rfl]; exact congrArg Prod.fst hf) p hp
  rw [hm] at this
  exact absurd this.1 (by simp)

/-- **C107** as expected: whether a figure can be drawn does not depend on figures that were drawn before. -/
def C107_again_statement : Prop :=
  ∀ (text : ℚ → List Char) (v : Viz ℚ), v.Ok → v.stored = false → ∀ edges edges' : Bool,
    (v.drawData text none none none none true true edges').1.toBool =
      ((v.drawData text none none none none true true edges).2.drawData text none none none none true true edges').1.toBool

/-- A lattice with one stabiliser, `Y`. -/
def yLattice : Lattice :=
  { rows := 1, cols := 2, dataqubits := [(0, 0)], stabgens := [((0, 1), .A)], logicals := [], edges := [⟨(0, 1), (0, 0), .Y, none⟩],
    timeSteps := none, equbits := [(0, 0), (0, 1)], indexed := [(0, 0), (0, 1)], keepGauge := "none".toList, boundaryJoin := false }

/-- **C107** There are no options for edges `Y`: drawing them raises a `KeyError`, and afterwards the visualizer raises an
`AssertionError` for every grey figure, also without the edges. -/
theorem C107_again_counterexample : ¬ C107_again_statement := by
  intro h
  have hok : (⟨yLattice, yLattice.occupied, none, false⟩ : Viz ℚ).Ok :=
    ⟨⟨by decide, rfl, rfl⟩, List.Perm.refl _, by decide, by intro ps h; cases h⟩
  have := h (fun _ => []) ⟨yLattice, yLattice.occupied, none, false⟩ hok rfl true false
  revert this
  decide +kernel

/-- **C107** A visualizer that could draw a figure is as before. -/
theorem C107_unchanged (text : P → List Char) {v v' : Viz P} {syn : Option (List Bool)} {err corr : Option FrameArg} {only : Option (List Char)}
    {grey stabs edges : Bool} {fig : Fig P} (h : v.drawData text syn err corr only grey stabs edges = (.ok fig, v')) : v' = v := by
  unfold Viz.drawData at h
  repeat' split at h
  all_goals first | (cases h; rfl) | cases h | exact (congrArg Prod.snd h).symm

/-! ### Examples -/

/-- The hypotheses of `C107_markers_partial` are met; the syndrome bit of the first stabiliser is set, the error is `Y` on qubit 0, the
correction is `X` on qubit 0. -/
example : ∃ fig, rep3Viz.drawData (fun _ => []) (some [true, false]) (oneFrame (some ⟨[true, false, false], [true, false, false]⟩))
      (oneFrame (some ⟨[true, false, false], [false, false, false]⟩)) (onlyArg none) true true true = (.ok fig, rep3Viz) ∧ fig.grey = true ∧
    ∀ g x y, fig.HasMark g x y ↔ Expected rep3Viz.lattice (some [true, false]) (some ⟨[true, false, false], [true, false, false]⟩)
      (some ⟨[true, false, false], [false, false, false]⟩) none true g x y :=
  C107_markers_partial _ rep3Viz_ok rfl (by decide +kernel) (by decide +kernel)
    (by rintro bits rfl'; cases rfl'; decide +kernel) (by rintro f rfl'; cases rfl'; exact ⟨rfl, rfl⟩) (by rintro f rfl'; cases rfl'; exact ⟨rfl, rfl⟩) true true true

/-- The groups of markers of that figure, with the positions and the texts. -/
def rep3Marks : List (VGroup × List (ℚ × ℚ × String)) :=
  match (rep3Viz.drawData (fun _ => []) (some [true, false]) (oneFrame (some ⟨[true, false, false], [true, false, false]⟩))
      (oneFrame (some ⟨[true, false, false], [false, false, false]⟩)) none true true true).1 with
  | .ok f => f.marks.map fun m => (m.1, m.2.2.map fun r => (r.x, r.y, String.ofList r.hover))
  | .error _ => []

example : rep3Marks =
    [(.data, [(0, 0, "Data qubit 0<br />Ext. qubit 0"), (2, 0, "Data qubit 1<br />Ext. qubit 1"), (4, 0, "Data qubit 2<br />Ext. qubit 2")]),
      (.log, [(2, 1, "X<br />Logical 0<br />Ext. qubit 5"), (5, 0, "Z<br />Logical 1<br />Ext. qubit 6")]),
      (.frame true true, [(3 / 20, 3 / 20, "Data qubit 0")]),
      (.frame false true, [(3 / 20, -3 / 20, "Data qubit 0")]),
      (.frame false false, [(-3 / 20, -3 / 20, "Data qubit 0")]),
      (.stab .A false, [(3, 0, "Stabgen 1<br />Ext. qubit 4")]),
      (.stab .A true, [(1, 0, "Stabgen 0<br />Ext. qubit 3<br /><b>Syndrome set</b>")])] := by decide +kernel

end Plaquette
