import Verif.Spec.Codes
import Verif.Lemmas.Lattice
import Verif.Lemmas.PauliText
import Verif.Lemmas.Stab
import Mathlib.Data.List.Sort

/-!
# Operators of a lattice
-/

namespace Plaquette
variable {n : Nat}

/-! ### Sums modulo two -/

/-- Exclusive or over a list. -/
def xorSum {α : Type} (l : List α) (f : α → Bool) : Bool := l.foldr (fun a acc => f a ^^ acc) false

section xorSum
variable {α β : Type}

@[simp] theorem xorSum_nil (f : α → Bool) : xorSum [] f = false := rfl

@[simp] theorem xorSum_cons (a : α) (l : List α) (f : α → Bool) : xorSum (a :: l) f = (f a ^^ xorSum l f) := rfl

theorem xorSum_append (l m : List α) (f : α → Bool) : xorSum (l ++ m) f = (xorSum l f ^^ xorSum m f) := by
  induction l with
  | nil => simp
  | cons a l ih => simp [ih]

theorem xorSum_congr {l : List α} {f g : α → Bool} (h : ∀ a ∈ l, f a = g a) : xorSum l f = xorSum l g := by
  induction l with
  | nil => rfl
  | cons a l ih => rw [xorSum_cons, xorSum_cons, h a (by simp), ih (fun b hb => h b (by simp [hb]))]

theorem xorSum_false {l : List α} {f : α → Bool} (h : ∀ a ∈ l, f a = false) : xorSum l f = false := by
  induction l with
  | nil => rfl
  | cons a l ih => rw [xorSum_cons, h a (by simp), ih (fun b hb => h b (by simp [hb]))]; rfl

theorem xorSum_map (g : β → α) (l : List β) (f : α → Bool) : xorSum (l.map g) f = xorSum l (fun b => f (g b)) := by
  induction l with
  | nil => rfl
  | cons a l ih => simp [ih]

theorem xorSum_xor (l : List α) (f g : α → Bool) : xorSum l (fun a => f a ^^ g a) = (xorSum l f ^^ xorSum l g) := by
  induction l with
  | nil => rfl
  | cons a l ih =>
    simp only [xorSum_cons, ih]
    cases f a <;> cases g a <;> cases xorSum l f <;> cases xorSum l g <;> rfl

theorem xorSum_comm (l : List α) (m : List β) (f : α → β → Bool) :
    xorSum l (fun a => xorSum m (f a)) = xorSum m (fun b => xorSum l (fun a => f a b)) := by
  induction l with
  | nil => rw [xorSum_nil, xorSum_false]; simp
  | cons a l ih => simp only [xorSum_cons, ih, xorSum_xor]

theorem xorSum_perm {l m : List α} (h : l.Perm m) (f : α → Bool) : xorSum l f = xorSum m f := by
  induction h with
  | nil => rfl
  | cons a _ ih => simp [ih]
  | swap a b l =>
    simp only [xorSum_cons]
    cases f a <;> cases f b <;> cases xorSum l f <;> rfl
  | trans _ _ h1 h2 => exact h1.trans h2

/-- At most one entry counts. -/
theorem xorSum_unique {l : List α} {f : α → Bool} {a : α} (ha : a ∈ l) (hn : l.Nodup)
    (h : ∀ b ∈ l, b ≠ a → f b = false) : xorSum l f = f a := by
  induction l with
  | nil => simp at ha
  | cons c l ih =>
    rw [List.nodup_cons] at hn
    rw [xorSum_cons]
    rcases List.mem_cons.mp ha with rfl | ha
    · rw [xorSum_false (fun b hb => h b (by simp [hb]) (fun he => hn.1 (he ▸ hb)))]
      simp
    · rw [h c (by simp) (fun he => hn.1 (he ▸ ha)), ih ha hn.2 (fun b hb => h b (by simp [hb]))]
      simp

theorem xorSum_filter (l : List α) (p : α → Bool) (f : α → Bool) :
    xorSum (l.filter p) f = xorSum l (fun a => p a && f a) := by
  induction l with
  | nil => rfl
  | cons a l ih =>
    rw [List.filter_cons, xorSum_cons]
    cases h : p a <;> simp [ih]

theorem xorSum_flatMap (l : List β) (g : β → List α) (f : α → Bool) :
    xorSum (l.flatMap g) f = xorSum l (fun b => xorSum (g b) f) := by
  induction l with
  | nil => rfl
  | cons a l ih => rw [List.flatMap_cons, xorSum_append, xorSum_cons, ih]

end xorSum

/-! ### The operator of a list of edges -/

def Letter.hasX : Letter → Bool
  | .X => true
  | .Y => true
  | .Z => false

def Letter.hasZ : Letter → Bool
  | .X => false
  | .Y => true
  | .Z => true

/-- The product of the factors of the edges. -/
def edgesOp (idx : Pos → Nat) (n : Nat) (es : List LEdge) : Op n where
  x q := xorSum es fun e => decide (idx e.data = q.val) && e.factor.hasX
  z q := xorSum es fun e => decide (idx e.data = q.val) && e.factor.hasZ
  r := false

/-- Do the factors of two edges anticommute? -/
def pairAnti (a b : LEdge) : Bool := decide (a.data = b.data) && decide (a.factor ≠ b.factor)

/-- Do the products of the factors anticommute? -/
def antiE (as bs : List LEdge) : Bool := xorSum as fun a => xorSum bs (pairAnti a)

theorem pairAnti_symm (a b : LEdge) : pairAnti a b = pairAnti b a := by
  unfold pairAnti
  rw [decide_eq_decide.mpr (eq_comm (a := a.data)), decide_eq_decide.mpr (ne_comm (a := a.factor))]

theorem antiE_symm (as bs : List LEdge) : antiE as bs = antiE bs as := by
  unfold antiE
  rw [xorSum_comm]
  exact xorSum_congr fun b _ => xorSum_congr fun a _ => pairAnti_symm a b

theorem antiE_append_left (as as' bs : List LEdge) : antiE (as ++ as') bs = (antiE as bs ^^ antiE as' bs) :=
  xorSum_append _ _ _

theorem antiE_cons_left (a : LEdge) (as bs : List LEdge) : antiE (a :: as) bs = (xorSum bs (pairAnti a) ^^ antiE as bs) := rfl

theorem antiE_perm_left {as as' : List LEdge} (h : as.Perm as') (bs : List LEdge) : antiE as bs = antiE as' bs :=
  xorSum_perm h _

theorem antiE_nil_right (as : List LEdge) : antiE as [] = false := xorSum_false fun _ _ => rfl

/-- One edge as an operator, compared with another. -/
theorem anti_edge (idx : Pos → Nat) (a b : LEdge) (ha : idx a.data < n)
    (hinj : idx a.data = idx b.data → a.data = b.data) :
    anti (edgesOp idx n [a]) (edgesOp idx n [b]) = pairAnti a b := by
  unfold anti pairAnti
  rw [Finset.sum_eq_single (⟨idx a.data, ha⟩ : Fin n)]
  · simp only [edgesOp, xorSum_cons, xorSum_nil, Bool.xor_false, decide_true, Bool.true_and]
    by_cases h : a.data = b.data
    · simp only [h, decide_true, Bool.true_and]
      cases a.factor <;> cases b.factor <;> rfl
    · have h' : ¬ idx b.data = idx a.data := fun hc => h (hinj hc.symm)
      simp [h, h', bit]
  · intro q _ hq
    have : ¬ idx a.data = q.val := fun hc => hq (Fin.ext hc.symm)
    simp [edgesOp, this, bit]
  · simp

theorem anti_edgesOp_cons (idx : Pos → Nat) (a : LEdge) (as : List LEdge) (c : Op n) :
    anti (edgesOp idx n (a :: as)) c = (anti (edgesOp idx n [a]) c ^^ anti (edgesOp idx n as) c) := by
  rw [← anti_mul_left]
  apply anti_congr _ _ rfl rfl
  · funext q; simp [edgesOp, mulOp]; rfl
  · funext q; simp [edgesOp, mulOp]; rfl

theorem anti_edgesOp_nil (idx : Pos → Nat) (c : Op n) : anti (edgesOp idx n []) c = false := by
  rw [← anti_idOp c]
  exact anti_congr rfl rfl rfl rfl

/-- **The operators of two lists of edges** anticommute as their factors say. -/
theorem anti_edgesOp (idx : Pos → Nat) (as bs : List LEdge) (ha : ∀ a ∈ as, idx a.data < n)
    (hinj : ∀ a ∈ as, ∀ b ∈ bs, idx a.data = idx b.data → a.data = b.data) :
    anti (edgesOp idx n as) (edgesOp idx n bs) = antiE as bs := by
  induction as with
  | nil => rw [anti_edgesOp_nil]; rfl
  | cons a as ih =>
    rw [anti_edgesOp_cons, ih (fun b hb => ha b (by simp [hb])) (fun b hb => hinj b (by simp [hb])), antiE_cons_left]
    congr 1
    clear ih
    induction bs with
    | nil => rw [anti_symm, anti_edgesOp_nil]; rfl
    | cons b bs ih =>
      rw [anti_symm, anti_edgesOp_cons, anti_symm _ (edgesOp idx n [a]), anti_symm _ (edgesOp idx n [a]),
        ih (fun c hc d hd => hinj c hc d (by simp [hd])), xorSum_cons,
        anti_edge idx a b (ha a (by simp)) (hinj a (by simp) b (by simp))]

/-! ### The operator strings -/

theorem fillString_spec (l : List (Nat × Letter)) : ∀ (s : List Char), (∀ e ∈ l, s.length ≤ e.1) →
    (l.map Prod.fst).Pairwise (· < ·) →
    ((fillString s l).zipIdx.filterMap fun e => if e.1 ≠ 'I' then some (e.2, e.1) else none) =
      (s.zipIdx.filterMap fun e => if e.1 ≠ 'I' then some (e.2, e.1) else none) ++ l.map fun e => (e.1, e.2.char) := by
  induction l with
  | nil => intro s _ _; simp [fillString]
  | cons e l ih =>
    intro s hs hp
    obtain ⟨q, t⟩ := e
    have hq : s.length ≤ q := hs (q, t) (by simp)
    have hlen : (s ++ List.replicate (q - s.length) 'I' ++ [t.char]).length = q + 1 := by simp; omega
    simp only [List.map_cons, List.pairwise_cons] at hp
    rw [fillString, ih]
    · rw [List.zipIdx_append, List.zipIdx_append, List.filterMap_append, List.filterMap_append]
      have h1 : ((List.replicate (q - s.length) 'I').zipIdx (0 + s.length)).filterMap
          (fun e : Char × Nat => if e.1 ≠ 'I' then some (e.2, e.1) else none) = [] := by
        rw [List.filterMap_eq_nil_iff]
        intro e he
        have := List.fst_mem_of_mem_zipIdx he
        rw [List.eq_of_mem_replicate this]
        simp
      have h2 : (0 + (s ++ List.replicate (q - s.length) 'I').length) = q := by simp; omega
      rw [h1, h2]
      have h3 : t.char ≠ 'I' := by cases t <;> decide
      simp [h3]
    · intro e he
      rw [hlen]
      have := hp.1 e.1 (List.mem_map_of_mem he)
      simpa using this
    · exact hp.2

theorem fillString_chars (l : List (Nat × Letter)) : ∀ (s : List Char),
    ∀ c ∈ fillString s l, c ∈ s ∨ c = 'I' ∨ c = 'X' ∨ c = 'Y' ∨ c = 'Z' := by
  induction l with
  | nil => intro s c hc; exact Or.inl hc
  | cons e l ih =>
    intro s c hc
    obtain ⟨q, t⟩ := e
    rw [fillString] at hc
    rcases ih _ c hc with h | h
    · simp only [List.mem_append, List.mem_replicate, List.mem_singleton] at h
      rcases h with (h | h) | h
      · exact Or.inl h
      · exact Or.inr (Or.inl h.2)
      · right; right
        cases t <;> simp_all [Letter.char]
    · exact Or.inr h

theorem fillString_length (l : List (Nat × Letter)) (m : Nat) (hm : ∀ e ∈ l, e.1 < m) : ∀ (s : List Char), s.length ≤ m →
    (∀ e ∈ l, s.length ≤ e.1) → (l.map Prod.fst).Pairwise (· < ·) → (fillString s l).length ≤ m := by
  induction l with
  | nil => intro s h _ _; exact h
  | cons e l ih =>
    intro s h hs hp
    obtain ⟨q, t⟩ := e
    have hq : s.length ≤ q := hs (q, t) (by simp)
    have hlen : (s ++ List.replicate (q - s.length) 'I' ++ [t.char]).length = q + 1 := by simp; omega
    simp only [List.map_cons, List.pairwise_cons] at hp
    rw [fillString]
    have hqm : q < m := hm (q, t) (by simp)
    apply ih (fun e he => hm e (by simp [he])) _ (by rw [hlen]; omega) _ hp.2
    intro e he
    rw [hlen]
    exact hp.1 e.1 (List.mem_map_of_mem he)

theorem stringToPauli_fill (l : List (Nat × Letter)) (hne : l ≠ []) (hp : (l.map Prod.fst).Pairwise (· < ·))
    (hm : ∀ e ∈ l, e.1 < n) :
    stringToPauli (fillString [] l) (some n) = .ok ⟨n, (l.map fun e => (e.1, e.2.char)).foldl writeEntry (idOp n)⟩ := by
  have hplain : ∀ c ∈ fillString [] l, c.isDigit = false ∧ c ≠ ' ' ∧ c ≠ '_' ∧ c ≠ '+' ∧ c ≠ '-' := by
    intro c hc
    rcases fillString_chars l [] c hc with h | rfl | rfl | rfl | rfl
    · simp at h
    all_goals decide
  have hspec := fillString_spec l [] (by simp) hp
  simp only [List.zipIdx_nil, List.filterMap_nil, List.nil_append] at hspec
  have hlen := fillString_length l n hm [] (by simp) (by simp) hp
  have hf : (fillString [] l).filter (fun c => c ≠ ' ' ∧ c ≠ '_') = fillString [] l := by
    rw [List.filter_eq_self]
    intro c hc
    simp [hplain c hc]
  have hd : (fillString [] l).any Char.isDigit = false := by
    rw [List.any_eq_false]
    intro c hc
    simp [hplain c hc]
  unfold stringToPauli
  simp only [hf, hd, Bool.false_eq_true, if_false]
  cases hs : fillString [] l with
  | nil =>
    exfalso
    rw [hs] at hspec
    simp at hspec
    exact hne hspec
  | cons c rest =>
    have hc := hplain c (by rw [hs]; simp)
    simp only [hc.2.2.2.1, hc.2.2.2.2, or_self, if_false]
    rw [hs] at hspec hlen
    rw [hspec]
    have hmax : max ((some n).getD 0) (c :: rest).length = n := by simp at hlen ⊢; omega
    rw [hmax, dictToPauli_ok (by simpa using hne) n (by
      intro e he
      simp only [List.mem_map] at he
      obtain ⟨e', he', rfl⟩ := he
      exact hm e' he')]
    simp only
    congr 2
    apply Op.ext
    · rfl
    · rfl
    · rw [write_r]; rfl

theorem Letter.char_x (l : Letter) : (l.char = 'X' ∨ l.char = 'Y' : Bool) = l.hasX := by cases l <;> decide
theorem Letter.char_z (l : Letter) : (l.char = 'Z' ∨ l.char = 'Y' : Bool) = l.hasZ := by cases l <;> decide

/-- **The operator of a vertex**: the product of the factors of its edges. -/
theorem operator_eq (L : Lattice) (v : Pos) (hne : L.opEdges v ≠ [])
    (hnd : ((L.opEdges v).map fun e => L.idx e.data).Nodup)
    (hlt : ∀ e ∈ L.opEdges v, L.idx e.data < L.dataqubits.length) :
    L.operator v = .ok ⟨L.dataqubits.length, edgesOp L.idx L.dataqubits.length (L.opEdges v)⟩ := by
  have hperm : (L.opDict v).Perm ((L.opEdges v).map fun e => (L.idx e.data, e.factor)) := List.mergeSort_perm _ _
  have hne' : L.opDict v ≠ [] := by
    intro h
    rw [h] at hperm
    have := hperm.length_eq
    simp at this
    exact hne (List.eq_nil_of_length_eq_zero this.symm)
  have hnd' : ((L.opDict v).map Prod.fst).Nodup := by
    rw [(hperm.map Prod.fst).nodup_iff, List.map_map]
    exact hnd
  have hsorted : ((L.opDict v).map Prod.fst).Pairwise (· < ·) := by
    have h1 : ((L.opDict v).map Prod.fst).Pairwise (· ≤ ·) := by
      rw [List.pairwise_map]
      have := List.pairwise_mergeSort (le := fun (a b : Nat × Letter) => decide (a.1 ≤ b.1))
        (fun a b c h1 h2 => by simp at *; omega) (fun a b => by simp; omega)
        ((L.opEdges v).map fun e => (L.idx e.data, e.factor))
      exact this.imp (fun h => by simpa using h)
    exact (h1.and hnd').imp (fun ⟨h1, h2⟩ => lt_of_le_of_ne h1 h2)
  have hmem : ∀ e, e ∈ L.opDict v ↔ ∃ a ∈ L.opEdges v, (L.idx a.data, a.factor) = e := by
    intro e
    rw [hperm.mem_iff, List.mem_map]
  have hlt' : ∀ e ∈ L.opDict v, e.1 < L.dataqubits.length := by
    intro e he
    obtain ⟨a, ha, rfl⟩ := (hmem e).mp he
    exact hlt a ha
  unfold Lattice.operator
  rw [stringToPauli_fill _ hne' hsorted hlt']
  have hnodup : (L.opEdges v).Nodup := List.Nodup.of_map _ hnd
  have hkeys : (((L.opDict v).map fun e => (e.1, e.2.char)).map Prod.fst).Nodup := by
    rw [List.map_map]; exact hnd'
  have huniq : ∀ a ∈ L.opEdges v, ∀ b ∈ L.opEdges v, b ≠ a → L.idx b.data ≠ L.idx a.data := by
    intro a ha b hb hba h
    exact hba (List.inj_on_of_nodup_map hnd hb ha h)
  congr 2
  have hcase : ∀ q : Fin L.dataqubits.length, (∃ a ∈ L.opEdges v, L.idx a.data = q.val) ∨
      (∀ a ∈ L.opEdges v, L.idx a.data ≠ q.val) := by
    intro q
    by_cases h : ∃ a ∈ L.opEdges v, L.idx a.data = q.val
    · exact Or.inl h
    · right; intro a ha hq; exact h ⟨a, ha, hq⟩
  apply Op.ext
  · funext q
    rcases hcase q with ⟨a, ha, hq⟩ | h
    · have := (write_mem _ (idOp _) q a.factor.char hkeys (List.mem_map.mpr ⟨(q.val, a.factor), (hmem _).mpr ⟨a, ha, by rw [hq]⟩, rfl⟩)).1
      rw [this, Letter.char_x]
      simp only [edgesOp]
      rw [xorSum_unique ha hnodup]
      · simp [hq]
      · intro b hb hba
        have := huniq a ha b hb hba
        rw [hq] at this
        simp [this]
    · rw [(write_other _ (idOp _) q (by
        intro e he
        obtain ⟨e', he', rfl⟩ := List.mem_map.mp he
        obtain ⟨a, ha, rfl⟩ := (hmem e').mp he'
        exact h a ha)).1]
      simp only [edgesOp]
      rw [xorSum_false (fun a ha => by simp [h a ha])]
      rfl
  · funext q
    rcases hcase q with ⟨a, ha, hq⟩ | h
    · have := (write_mem _ (idOp _) q a.factor.char hkeys (List.mem_map.mpr ⟨(q.val, a.factor), (hmem _).mpr ⟨a, ha, by rw [hq]⟩, rfl⟩)).2
      rw [this, Letter.char_z]
      simp only [edgesOp]
      rw [xorSum_unique ha hnodup]
      · simp [hq]
      · intro b hb hba
        have := huniq a ha b hb hba
        rw [hq] at this
        simp [this]
    · rw [(write_other _ (idOp _) q (by
        intro e he
        obtain ⟨e', he', rfl⟩ := List.mem_map.mp he
        obtain ⟨a, ha, rfl⟩ := (hmem e').mp he'
        exact h a ha)).2]
      simp only [edgesOp]
      rw [xorSum_false (fun a ha => by simp [h a ha])]
      rfl
  · rw [write_r]; rfl

end Plaquette
