import Verif.Model.Visualizer
import Verif.Lemmas.Weights

/-!
# Lemmas about the visualizer
-/

namespace Plaquette
variable {P : Type}

/-! ### The list of vertices -/

/-- What is kept by the functions that add and remove vertices. -/
structure VLists.Ok (l : VLists) : Prop where
  nodup : l.vertices.Nodup
  perm : l.vertices.Perm (l.data ++ l.stabs ++ l.logs)
  data : l.vertices.filter (· ∈ l.data) = l.data

theorem VLists.Ok.mem_data {l : VLists} (h : l.Ok) {p : Pos} (hp : p ∈ l.data) : p ∈ l.vertices := by
  have := h.perm.mem_iff (a := p)
  simp_all

theorem VLists.Ok.disj {l : VLists} (h : l.Ok) {p : Pos} (hp : p ∈ l.data) : p ∉ l.stabs ∧ p ∉ l.logs := by
  have := (h.perm.nodup_iff).mp h.nodup
  rw [List.append_assoc, List.nodup_append] at this
  have h3 := this.2.2
  exact ⟨fun hc => h3 p hp p (by simp [hc]) rfl, fun hc => h3 p hp p (by simp [hc]) rfl⟩

theorem nodup_snoc {l : List Pos} {p : Pos} (h : l.Nodup) (hp : p ∉ l) : (l ++ [p]).Nodup := by
  rw [List.nodup_append]
  refine ⟨h, by simp, fun a ha b hb hc => ?_⟩
  rw [List.mem_singleton] at hb
  subst hb hc
  exact hp ha

theorem VLists.step_ok {l l' : VLists} (h : l.Ok) (hs : VLists.Step l l') : l'.Ok := by
  cases hs with
  | @addData p hp =>
    refine ⟨?_, ?_, ?_⟩
    · exact nodup_snoc h.nodup hp
    · show (l.vertices ++ [p]).Perm (l.data ++ [p] ++ l.stabs ++ l.logs)
      refine (h.perm.append_right [p]).trans ?_
      simp only [List.append_assoc]
      refine List.Perm.append_left _ ?_
      have := List.perm_append_comm (l₁ := l.stabs ++ l.logs) (l₂ := [p])
      rwa [List.append_assoc] at this
    · show (l.vertices ++ [p]).filter (· ∈ l.data ++ [p]) = l.data ++ [p]
      rw [List.filter_append]
      congr 1
      · conv_rhs => rw [← h.data]
        refine List.filter_congr fun a ha => ?_
        have : a ≠ p := fun hc => hp (hc ▸ ha)
        simp [this]
      · simp
  | @addStab p hp =>
    refine ⟨?_, ?_, ?_⟩
    · exact nodup_snoc h.nodup hp
    · show (l.vertices ++ [p]).Perm (l.data ++ (l.stabs ++ [p]) ++ l.logs)
      refine (h.perm.append_right [p]).trans ?_
      simp only [List.append_assoc]
      exact (List.perm_append_comm (l₁ := l.logs) (l₂ := [p])).append_left _ |>.append_left _
    · show (l.vertices ++ [p]).filter (· ∈ l.data) = l.data
      have : p ∉ l.data := fun hc => hp (h.mem_data hc)
      rw [List.filter_append, h.data]
      simp [this]
  | @addLog p hp =>
    refine ⟨?_, ?_, ?_⟩
    · exact nodup_snoc h.nodup hp
    · show (l.vertices ++ [p]).Perm (l.data ++ l.stabs ++ (l.logs ++ [p]))
      refine (h.perm.append_right [p]).trans ?_
      simp only [List.append_assoc]
      exact List.Perm.refl _
    · show (l.vertices ++ [p]).filter (· ∈ l.data) = l.data
      have : p ∉ l.data := fun hc => hp (h.mem_data hc)
      rw [List.filter_append, h.data]
      simp [this]
  | @removeData p hp =>
    have hd := h.disj hp
    refine ⟨h.nodup.erase p, ?_, ?_⟩
    · show (l.vertices.erase p).Perm (l.data.erase p ++ l.stabs ++ l.logs)
      rw [← List.erase_append_left _ hp, ← List.erase_append_left _ (by simp [hp])]
      exact h.perm.erase p
    · show (l.vertices.erase p).filter (· ∈ l.data.erase p) = l.data.erase p
      have hn : l.data.Nodup := by rw [← h.data]; exact h.nodup.filter _
      rw [h.nodup.erase_eq_filter, List.filter_filter]
      conv_rhs => rw [hn.erase_eq_filter, ← h.data, List.filter_filter]
      refine List.filter_congr fun a ha => ?_
      simp [hn.mem_erase_iff]
      grind
  | @removeStab p hp =>
    have hd : p ∉ l.data := fun hc => (h.disj hc).1 hp
    refine ⟨h.nodup.erase p, ?_, ?_⟩
    · show (l.vertices.erase p).Perm (l.data ++ l.stabs.erase p ++ l.logs)
      rw [← List.erase_append_right _ hd, ← List.erase_append_left _ (by simp [hp])]
      exact h.perm.erase p
    · show (l.vertices.erase p).filter (· ∈ l.data) = l.data
      rw [h.nodup.erase_eq_filter, List.filter_filter]
      conv_rhs => rw [← h.data]
      refine List.filter_congr fun a ha => ?_
      by_cases hc : a = p
      · subst hc; simp [hd]
      · simp [hc]
  | @removeLog p hp =>
    have hd : p ∉ l.data := fun hc => (h.disj hc).2 hp
    have hs : p ∉ l.stabs := by
      have := (h.perm.nodup_iff).mp h.nodup
      rw [List.append_assoc, List.nodup_append] at this
      exact fun hc => (List.nodup_append.mp this.2.1).2.2 p hc p hp rfl
    refine ⟨h.nodup.erase p, ?_, ?_⟩
    · show (l.vertices.erase p).Perm (l.data ++ l.stabs ++ l.logs.erase p)
      rw [← List.erase_append_right _ (by simp [hd, hs])]
      exact h.perm.erase p
    · show (l.vertices.erase p).filter (· ∈ l.data) = l.data
      rw [h.nodup.erase_eq_filter, List.filter_filter]
      conv_rhs => rw [← h.data]
      refine List.filter_congr fun a ha => ?_
      by_cases hc : a = p
      · subst hc; simp [hd]
      · simp [hc]

theorem VLists.made_ok {l : VLists} (h : l.Made) : l.Ok := by
  induction h with
  | empty => exact ⟨by simp, by simp, by simp⟩
  | step _ hs ih => exact VLists.step_ok ih hs

/-! ### The rows of the vertices -/

/-- A bit of the syndrome; without a syndrome no bit is set. -/
def synBit (syndrome : Option (List Bool)) (i : Nat) : Bool :=
  match syndrome with
  | none => false
  | some bits => bits[i]?.getD false

/-- The row of a vertex; `i` is the number of the data qubits before it. -/
def vertRow (text : P → List Char) (L : Lattice) (probs : Option (List P)) (syndrome : Option (List Bool)) (i : Nat) (p : Pos) : VRow :=
  if p ∈ L.dataqubits then ⟨p.1, p.2, .data, dataHover text L p (probs.bind fun ps => ps[i]?)⟩
  else
    match L.stabgens.find? fun g => g.1 = p with
    | some g => ⟨p.1, p.2, .stab g.2 (synBit syndrome (L.stabIdx p)), stabHover L p (synBit syndrome (L.stabIdx p))⟩
    | none => ⟨p.1, p.2, .log, logHover L p (((L.logicals.find? fun g => g.1 = p).map Prod.snd).getD [])⟩

/-- The rows of vertices. -/
def vertRows (text : P → List Char) (L : Lattice) (probs : Option (List P)) (syndrome : Option (List Bool)) : Nat → List Pos → List VRow
  | _, [] => []
  | i, p :: ps => vertRow text L probs syndrome i p :: vertRows text L probs syndrome (if p ∈ L.dataqubits then i + 1 else i) ps

/-- The sizes of the arrays given to the visualizer. -/
structure VizSizes (L : Lattice) (probs : Option (List P)) (syndrome : Option (List Bool)) : Prop where
  probs : ∀ ps, probs = some ps → ps.length = L.dataqubits.length
  syndrome : ∀ bits, syndrome = some bits → bits.length = L.stabgens.length

theorem Lattice.Indexed.stabIdx {L : Lattice} (hL : L.Indexed) {j : Nat} {g : Pos × StabGroup} (h : L.stabgens[j]? = some g) :
    L.stabIdx g.1 = j := by
  have : L.equbits[L.dataqubits.length + j]? = some g.1 := by
    rw [hL.equbits, Lattice.occupied, List.append_assoc, List.getElem?_append_right (by omega), Nat.add_sub_cancel_left,
      List.getElem?_append_left (by rw [List.length_map]; exact (List.getElem?_eq_some_iff.mp h).1), List.getElem?_map, h]
    rfl
  unfold Lattice.stabIdx
  rw [hL.idx this]
  omega

theorem vertStep_eq {text : P → List Char} {L : Lattice} (hL : L.Indexed) {probs : Option (List P)} {syndrome : Option (List Bool)}
    (hs : VizSizes L probs syndrome) {i : Nat} {rows : List VRow} {p : Pos} (hp : p ∈ L.occupied)
    (hi : p ∈ L.dataqubits → i < L.dataqubits.length) :
    vertStep text L probs syndrome (i, rows) p =
      .ok (if p ∈ L.dataqubits then i + 1 else i, rows ++ [vertRow text L probs syndrome i p]) := by
  unfold vertStep vertRow
  by_cases hd : p ∈ L.dataqubits
  · simp only [if_pos hd]
    cases hpr : probs with
    | none => rfl
    | some ps =>
      have : i < ps.length := by rw [hs.probs ps hpr]; exact hi hd
      simp [List.getElem?_eq_getElem this]
  · simp only [if_neg hd]
    cases hf : L.stabgens.find? fun g => g.1 = p with
    | some g =>
      have hg : g.1 = p := by simpa using List.find?_some hf
      have hm := List.mem_of_find?_eq_some hf
      obtain ⟨j, hj⟩ := List.mem_iff_getElem?.mp hm
      have hidx := hL.stabIdx hj
      rw [hg] at hidx
      cases hsy : syndrome with
      | none => simp [synBit]
      | some bits =>
        have : j < bits.length := by rw [hs.syndrome bits hsy]; exact (List.getElem?_eq_some_iff.mp hj).1
        simp [synBit, hidx, List.getElem?_eq_getElem this]
    | none =>
      have hno : p ∉ L.stabgens.map Prod.fst := by
        intro hc
        obtain ⟨g, hg, hgp⟩ := List.mem_map.mp hc
        have := List.find?_eq_none.mp hf g hg
        simp [hgp] at this
      have hlog : p ∈ L.logicals.map Prod.fst := by
        simp only [Lattice.occupied, List.mem_append] at hp
        tauto
      obtain ⟨g, hg, hgp⟩ := List.mem_map.mp hlog
      cases hf2 : L.logicals.find? fun g => g.1 = p with
      | some g' => simp
      | none =>
        have := List.find?_eq_none.mp hf2 g hg
        simp [hgp] at this

theorem vertLoop {text : P → List Char} {L : Lattice} (hL : L.Indexed) {probs : Option (List P)} {syndrome : Option (List Bool)}
    (hs : VizSizes L probs syndrome) : ∀ {order : List Pos} {i : Nat} {rows : List VRow}, (∀ p ∈ order, p ∈ L.occupied) →
      i + (order.filter (· ∈ L.dataqubits)).length ≤ L.dataqubits.length →
      loopE (vertStep text L probs syndrome) (i, rows) order =
        .ok (i + (order.filter (· ∈ L.dataqubits)).length, rows ++ vertRows text L probs syndrome i order)
  | [], i, rows, _, _ => by simp [vertRows]
  | p :: order, i, rows, ho, hi => by
    have hstep := vertStep_eq (text := text) hL hs (i := i) (rows := rows) (ho p List.mem_cons_self) (fun hd => by
      rw [List.filter_cons_of_pos (by simpa using hd), List.length_cons] at hi
      omega)
    rw [loopE_cons, hstep]
    show loopE _ (_, _) order = _
    rw [vertLoop hL hs (fun q hq => ho q (List.mem_cons_of_mem _ hq)) (by
      by_cases hd : p ∈ L.dataqubits
      · rw [List.filter_cons_of_pos (by simpa using hd), List.length_cons] at hi
        rw [if_pos hd]; omega
      · rw [List.filter_cons_of_neg (by simpa using hd)] at hi
        rw [if_neg hd]; omega)]
    rw [vertRows, List.append_assoc, List.singleton_append]
    by_cases hd : p ∈ L.dataqubits
    · rw [List.filter_cons_of_pos (by simpa using hd), List.length_cons, if_pos hd]
      congr 2
      omega
    · rw [List.filter_cons_of_neg (by simpa using hd), if_neg hd]

theorem vertRow_pos (text : P → List Char) (L : Lattice) (probs : Option (List P)) (syndrome : Option (List Bool)) (i : Nat) (p : Pos) :
    (vertRow text L probs syndrome i p).x = p.1 ∧ (vertRow text L probs syndrome i p).y = p.2 := by
  unfold vertRow
  split
  · exact ⟨rfl, rfl⟩
  · split <;> exact ⟨rfl, rfl⟩

/-- The group of the marker of a vertex. -/
def vertGroup (L : Lattice) (syndrome : Option (List Bool)) (p : Pos) : VGroup :=
  if p ∈ L.dataqubits then .data
  else
    match L.stabgens.find? fun g => g.1 = p with
    | some g => .stab g.2 (synBit syndrome (L.stabIdx p))
    | none => .log

theorem vertRow_group (text : P → List Char) (L : Lattice) (probs : Option (List P)) (syndrome : Option (List Bool)) (i : Nat) (p : Pos) :
    (vertRow text L probs syndrome i p).group = vertGroup L syndrome p := by
  unfold vertRow vertGroup
  split
  · rfl
  · split <;> rfl

theorem mem_vertRows {text : P → List Char} {L : Lattice} {probs : Option (List P)} {syndrome : Option (List Bool)} :
    ∀ {order : List Pos} {i : Nat} {g : VGroup} {x y : ℚ},
      (∃ r ∈ vertRows text L probs syndrome i order, r.group = g ∧ r.x = x ∧ r.y = y) ↔
        ∃ p ∈ order, vertGroup L syndrome p = g ∧ (p.1 : ℚ) = x ∧ (p.2 : ℚ) = y
  | [], _, _, _, _ => by simp [vertRows]
  | p :: order, i, g, x, y => by
    rw [vertRows]
    simp only [List.exists_mem_cons_iff]
    rw [mem_vertRows, vertRow_group, (vertRow_pos _ _ _ _ _ _).1, (vertRow_pos _ _ _ _ _ _).2]

/-- The markers of the data qubits are in the order of the data qubits. -/
theorem vertRows_data {text : P → List Char} {L : Lattice} {probs : Option (List P)} {syndrome : Option (List Bool)} :
    ∀ {order : List Pos} {i : Nat}, (vertRows text L probs syndrome i order).filter (fun r => r.group = .data) =
      ((order.filter (· ∈ L.dataqubits)).zipIdx i).map fun e =>
        ⟨e.1.1, e.1.2, .data, dataHover text L e.1 (probs.bind fun ps => ps[e.2]?)⟩
  | [], _ => rfl
  | p :: order, i => by
    rw [vertRows]
    by_cases hd : p ∈ L.dataqubits
    · rw [List.filter_cons_of_pos (by simp [vertRow_group, vertGroup, hd]), List.filter_cons_of_pos (by simpa using hd), vertRows_data,
        if_pos hd, List.zipIdx_cons, List.map_cons]
      congr 1
      simp [vertRow, hd]
    · rw [List.filter_cons_of_neg (by
        simp only [vertRow_group, vertGroup, if_neg hd]
        split <;> simp), List.filter_cons_of_neg (by simpa using hd), vertRows_data, if_neg hd]

/-! ### The rows of the frames -/

/-- A factor of a frame: `X` (`true`) or `Z`. -/
def FrameBits.part (f : FrameBits) (isX : Bool) (i : Nat) : Bool := ((if isX then f.x else f.z)[i]?).getD false

/-- A frame on that many qubits. -/
structure FrameBits.On (f : FrameBits) (n : Nat) : Prop where
  x : f.x.length = n
  z : f.z.length = n

theorem mem_frameOps {f : FrameBits} {n : Nat} (h : f.On n) {i : Nat} {isX : Bool} :
    (i, isX) ∈ frameOps f ↔ i < n ∧ f.part isX i = true := by
  unfold frameOps FrameBits.part
  simp only [List.mem_flatMap, Prod.exists, List.mem_zipIdx_iff_getElem?, List.getElem?_zip_eq_some, List.mem_append]
  constructor
  · rintro ⟨a, b, j, ⟨ha, hb⟩, hm⟩
    have hj : j < n := by rw [← h.x]; exact (List.getElem?_eq_some_iff.mp ha).1
    rcases hm with hm | hm
    · cases a <;> simp at hm
      obtain ⟨rfl, rfl⟩ := hm
      exact ⟨hj, by simp [ha]⟩
    · cases b <;> simp at hm
      obtain ⟨rfl, rfl⟩ := hm
      exact ⟨hj, by simp [hb]⟩
  · rintro ⟨hi, hp⟩
    have h1 : i < f.x.length := by rw [h.x]; exact hi
    have h2 : i < f.z.length := by rw [h.z]; exact hi
    refine ⟨f.x[i], f.z[i], i, ⟨List.getElem?_eq_getElem h1, List.getElem?_eq_getElem h2⟩, ?_⟩
    cases isX with
    | true => left; simp [List.getElem?_eq_getElem h1] at hp; simp [hp]
    | false => right; simp [List.getElem?_eq_getElem h2] at hp; simp [hp]

/-- The rows of the factors of a frame. -/
def frameRow (L : Lattice) (corr : Bool) (e : Nat × Bool) : VRow :=
  ⟨(L.dataqubits[e.1]?.getD (0, 0)).1 + (frameOffset corr e.2).1, (L.dataqubits[e.1]?.getD (0, 0)).2 + (frameOffset corr e.2).2,
    .frame corr e.2, "Data qubit ".toList ++ Nat.toDigits 10 e.1⟩

/-- The factor is drawn. -/
def shown (only : Option Bool) (isX : Bool) : Bool := only.isNone || only == some isX

theorem frameStep_eq {L : Lattice} {corr : Bool} {only : Option Bool} {rows : List VRow} {e : Nat × Bool} (h : e.1 < L.dataqubits.length) :
    frameStep L corr only rows e = .ok (rows ++ if shown only e.2 then [frameRow L corr e] else []) := by
  unfold frameStep shown
  by_cases hc : only.isSome = true ∧ only ≠ some e.2
  · rw [if_pos hc]
    cases only with
    | none => simp at hc
    | some b => have : b ≠ e.2 := by simpa using hc
                simp [this]
  · rw [if_neg hc, List.getElem?_eq_getElem h]
    have : (only.isNone || only == some e.2) = true := by
      cases only with
      | none => rfl
      | some b => have : b = e.2 := by simpa using hc
                  simp [this]
    rw [this]
    simp [frameRow, List.getElem?_eq_getElem h]

theorem frameLoop {L : Lattice} {corr : Bool} {only : Option Bool} : ∀ {ops : List (Nat × Bool)} {rows : List VRow},
    (∀ e ∈ ops, e.1 < L.dataqubits.length) →
      loopE (frameStep L corr only) rows ops = .ok (rows ++ (ops.filter fun e => shown only e.2).map (frameRow L corr))
  | [], rows, _ => by simp
  | e :: ops, rows, h => by
    rw [loopE_cons, frameStep_eq (h e List.mem_cons_self)]
    show loopE _ _ ops = _
    rw [frameLoop fun a ha => h a (List.mem_cons_of_mem _ ha)]
    cases hs : shown only e.2 <;> simp [hs]

/-! ### The figure -/

/-- The figure has a marker of that group at that position. -/
def Fig.HasMark (f : Fig P) (g : VGroup) (x y : ℚ) : Prop := ∃ m ∈ f.marks, m.1 = g ∧ ∃ r ∈ m.2.2, r.x = x ∧ r.y = y

theorem mem_allGroups (g : VGroup) : g ∈ allGroups := by
  unfold allGroups
  match g with
  | .data => simp
  | .log => simp
  | .frame true true => simp
  | .frame true false => simp
  | .frame false true => simp
  | .frame false false => simp
  | .stab .A true => simp
  | .stab .A false => simp
  | .stab .B true => simp
  | .stab .B false => simp
  | .stab .U true => simp
  | .stab .U false => simp

theorem drawFig_ok {probs : Option (List P)} {grey : Bool} {vs : List VRow} {es : List ERow} (h : ∀ e ∈ es, e.1 ≠ .Y) :
    ∃ f, drawFig probs grey vs es = .ok f ∧ f.grey = grey ∧
      (∀ g x y, f.HasMark g x y ↔ ∃ r ∈ vs, r.group = g ∧ r.x = x ∧ r.y = y) ∧
      (∀ m ∈ f.marks, m.2.2 = vs.filter (fun r => r.group = m.1) ∧ m.2.1 = if m.1 = .data then probs else none) ∧
      ∀ a pts, (a, pts) ∈ f.lines ↔ (∃ e ∈ es, e.1 = a) ∧ pts = (es.filter fun e => e.1 = a).map Prod.snd := by
  unfold drawFig
  rw [if_neg (by
    intro hc
    obtain ⟨e, he, hY⟩ := List.any_eq_true.mp hc
    exact h e he (by simpa using hY))]
  refine ⟨_, rfl, rfl, fun g x y => ?_, fun m hm => ?_, fun a pts => ?_⟩
  · unfold Fig.HasMark
    constructor
    · rintro ⟨m, hm, rfl, r, hr, hx⟩
      obtain ⟨g, -, hg⟩ := List.mem_filterMap.mp hm
      split at hg
      · cases hg
        simp only [List.mem_filter, decide_eq_true_eq] at hr
        exact ⟨r, hr.1, hr.2, hx⟩
      · cases hg
    · rintro ⟨r, hr, hg, hx⟩
      refine ⟨(g, if g = .data then probs else none, vs.filter fun r => r.group = g), ?_, rfl, r, by simpa using ⟨hr, hg⟩, hx⟩
      refine List.mem_filterMap.mpr ⟨g, mem_allGroups g, ?_⟩
      rw [if_pos (by simpa using ⟨r, hr, hg⟩)]
  · obtain ⟨g, -, hg⟩ := List.mem_filterMap.mp hm
    split at hg
    · cases hg
      exact ⟨rfl, rfl⟩
    · cases hg
  · simp only [List.mem_filterMap]
    constructor
    · rintro ⟨b, -, hb⟩
      split at hb
      · rename_i hany
        cases hb
        exact ⟨by simpa using hany, rfl⟩
      · cases hb
    · rintro ⟨⟨e, he, rfl⟩, rfl⟩
      refine ⟨e.1, ?_, ?_⟩
      · have := h e he
        match hl : e.1, this with
        | .X, _ => simp
        | .Z, _ => simp
      · rw [if_pos (by simpa using ⟨e.2, he⟩)]

end Plaquette
