import Verif.Lemmas.Circuit
import Verif.Spec.Circuit

/-!
# Lemmas on sizes and OpenQASM export
-/

namespace Plaquette
variable {F : Type}

/-- A lawful model of floats (non-negative integers), so that the hypothesis can be met. -/
def natApi : FloatApi Nat where
  repr k := Nat.toDigits 10 k
  parse s := (parseInt s).map Int.toNat
  ofInt i := i.toNat
  trunc k := .ok k
  inUnit k := decide (k ≤ 1)

theorem natApi_lawful : natApi.Lawful where
  parse_repr k := by
    have h := parseInt_reprInt (k : Int)
    have e : reprInt (k : Int) = Nat.toDigits 10 k := by simp [reprInt]
    rw [e] at h
    simp [natApi, h]
  repr_ne k := (tok_digits k).1
  repr_chars k := (tok_digits k).2

theorem maxArg_foldl (l : List (Val F)) (m : Int) :
    m ≤ l.foldl maxArg m ∧ (∀ i, Val.int i ∈ l → i ≤ l.foldl maxArg m) ∧
      (l.foldl maxArg m = m ∨ Val.int (l.foldl maxArg m) ∈ l) := by
  induction l generalizing m with
  | nil => simp
  | cons v l ih =>
    obtain ⟨h1, h2, h3⟩ := ih (maxArg m v)
    have hm : m ≤ maxArg m v := by cases v <;> simp [maxArg]; split <;> omega
    have hv : ∀ i, Val.int i = v → i ≤ maxArg m v := by
      rintro i rfl; simp only [maxArg]; split <;> omega
    refine ⟨le_trans hm h1, ?_, ?_⟩
    · intro i hi
      rcases List.mem_cons.mp hi with h | h
      · exact le_trans (hv i h) h1
      · exact h2 i h
    · rcases h3 with h3 | h3
      · simp only [List.foldl_cons]
        rw [h3]
        cases v with
        | int i =>
          simp only [maxArg]
          split
          · right; simp
          · left; rfl
        | flt f => left; rfl
        | name n => left; rfl
      · right; simp only [List.foldl_cons, List.mem_cons]; right; exact h3

theorem maxGates_foldl (c : List (Gate F)) (m : Int) :
    m ≤ c.foldl (fun n g => g.args.foldl maxArg n) m ∧
      (∀ g ∈ c, ∀ i, Val.int i ∈ g.args → i ≤ c.foldl (fun n g => g.args.foldl maxArg n) m) ∧
      (c.foldl (fun n g => g.args.foldl maxArg n) m = m ∨
        ∃ g ∈ c, Val.int (c.foldl (fun n g => g.args.foldl maxArg n) m) ∈ g.args) := by
  induction c generalizing m with
  | nil => simp
  | cons g c ih =>
    obtain ⟨h1, h2, h3⟩ := ih (g.args.foldl maxArg m)
    obtain ⟨k1, k2, k3⟩ := maxArg_foldl g.args m
    refine ⟨le_trans k1 h1, ?_, ?_⟩
    · intro g' hg' i hi
      rcases List.mem_cons.mp hg' with rfl | hg'
      · exact le_trans (k2 i hi) h1
      · exact h2 g' hg' i hi
    · rcases h3 with h3 | ⟨g', hg', h3⟩
      · simp only [List.foldl_cons]
        rw [h3]
        rcases k3 with k3 | k3
        · left; exact k3
        · right; exact ⟨g, by simp, k3⟩
      · right; exact ⟨g', by simp [hg'], h3⟩

theorem targetsOf_sub (n : Name) (args : List (Val F)) : ∀ v ∈ targetsOf n args, v ∈ args := by
  intro v hv
  cases n <;> simp only [targetsOf] at hv <;> first | exact hv | exact List.mem_of_mem_drop hv

theorem Gate.qubits_sub (g : Gate F) : ∀ v ∈ g.qubits, v ∈ g.args := by
  intro v hv
  obtain ⟨name, args⟩ := g
  unfold Gate.qubits at hv
  simp only at hv ⊢
  split at hv
  · exact List.mem_cons_of_mem _ (List.mem_cons_of_mem _ (targetsOf_sub _ _ v hv))
  · exact List.mem_cons_of_mem _ (List.mem_cons_of_mem _ (targetsOf_sub _ _ v hv))
  · exact List.mem_cons_of_mem _ (targetsOf_sub _ _ v hv)
  · exact targetsOf_sub _ _ v hv

theorem int_mem_qubits {api : FloatApi F} {g : Gate F} (hg : ArgsOk api g.name g.args) (hp : g.plain) {i : Int}
    (h : Val.int i ∈ g.args) : Val.int i ∈ g.qubits := by
  obtain ⟨name, args⟩ := g
  simp only at hg h
  have hch : ∀ {a b : Nat} {fs is : List (Val F)}, args = fs ++ is → fs.length = a → (∀ v ∈ fs, ∃ f, v = Val.flt f) →
      Val.int i ∈ args.drop a := by
    intro a b fs is h1 h2 h3
    subst h2
    rw [h1, List.drop_left]
    rw [h1] at h
    rcases List.mem_append.mp h with h | h
    · obtain ⟨f, hf⟩ := h3 _ h; cases hf
    · exact h
  have hn : ∀ n : Name, n ∉ [Name.E_ERASE, .E_PAULI, .E_PAULI2] → ∀ l : List (Val F), targetsOf n l = l := by
    intro n hn l
    cases n <;> simp_all [targetsOf]
  cases name <;> simp only [ArgsOk] at hg
  case ERROR =>
    obtain ⟨p, n, is, rfl, _, _⟩ := hg
    simp only [Gate.plain] at hp
    simp only [Gate.qubits]
    rw [hn n hp]
    simpa using h
  case ERROR_ELSE =>
    obtain ⟨p, n, is, rfl, _, _⟩ := hg
    simp only [Gate.plain] at hp
    simp only [Gate.qubits]
    rw [hn n hp]
    simpa using h
  case ERROR_CONTINUE =>
    obtain ⟨n, is, rfl, _⟩ := hg
    simp only [Gate.plain] at hp
    simp only [Gate.qubits]
    rw [hn n hp]
    simpa using h
  case E_ERASE => obtain ⟨fs, is, h1, h2, _, h4, _⟩ := hg; exact hch (b := 0) h1 h2 h4
  case E_PAULI => obtain ⟨fs, is, h1, h2, _, h4, _⟩ := hg; exact hch (b := 0) h1 h2 h4
  case E_PAULI2 => obtain ⟨fs, is, h1, h2, _, h4, _⟩ := hg; exact hch (b := 0) h1 h2 h4
  all_goals exact h

theorem qasmPairs_ok (name : Name) (args : List (Val F)) (ls : List QasmLine) (h : qasmPairs name args = .ok ls) :
    args.length % 2 = 0 ∧ ls = (List.range (args.length / 2)).map fun j =>
      .gate2 name ((args[2 * j]?.map Val.toInt).getD 0) ((args[2 * j + 1]?.map Val.toInt).getD 0) := by
  induction args using qasmPairs.induct (name := name) generalizing ls with
  | case1 => cases h; simp
  | case2 => simp [qasmPairs] at h
  | case3 a b rest e he => simp [qasmPairs, he] at h
  | case4 a b rest ls' h' ih =>
    rw [qasmPairs, h'] at h
    · cases h
      obtain ⟨h1, h2⟩ := ih _ h'
      constructor
      · simp only [List.length_cons]; omega
      · have : (a :: b :: rest).length / 2 = rest.length / 2 + 1 := by simp only [List.length_cons]; omega
        rw [this, List.range_succ_eq_map, List.map_cons, List.map_map, h2]
        congr 1

theorem qasmLoop_exact (k : Nat) (c : List (Gate F)) (ls : List QasmLine) (hR : ∀ g ∈ c, g.name ≠ .R)
    (h : qasmLoop false k c = .ok ls) : ls = exactQasmAll k c := by
  induction c generalizing k ls with
  | nil => cases h; rfl
  | cons g c ih =>
    obtain ⟨name, args⟩ := g
    have hR' := fun g h => hR g (List.mem_cons_of_mem _ h)
    have hne := hR _ (List.mem_cons_self ..)
    simp only at hne
    unfold qasmLoop at h
    cases name <;> simp only [Name.inQasm, Bool.not_true, Bool.not_false, if_true, Bool.false_eq_true, if_false] at h <;>
      first
      | exact absurd rfl hne
      | cases h
      | (split at h
         · cases h
         · rename_i ls' h'
           first
           | (cases h; rw [ih _ _ hR' h']; simp [exactQasmAll, exactQasm])
           | (split at h
              · cases h
              · rename_i h''
                cases h
                obtain ⟨_, e⟩ := qasmPairs_ok _ _ _ h'
                rw [ih _ _ hR' h'', e]
                simp [exactQasmAll, exactQasm]))

theorem measBits_append (a b : List QasmLine) : measBits (a ++ b) = measBits a ++ measBits b := by
  induction a with
  | nil => rfl
  | cons l a ih => cases l <;> simp [measBits, ih]

theorem numberMeasured_cons (g : Gate F) (c : List (Gate F)) (t : Nat) :
    (g :: c).foldl (fun t g => if g.name = .M then t + g.args.length else t) t =
      c.foldl (fun t g => if g.name = .M then t + g.args.length else t)
        (if g.name = .M then t + g.args.length else t) := rfl

theorem numberMeasured_add (c : List (Gate F)) (t : Nat) :
    c.foldl (fun t g => if g.name = .M then t + g.args.length else t) t = t + numberMeasured c := by
  unfold numberMeasured
  induction c generalizing t with
  | nil => simp
  | cons g c ih =>
    rw [numberMeasured_cons, numberMeasured_cons, ih, ih (if g.name = .M then 0 + g.args.length else 0)]
    split <;> omega

theorem measBits_map_gate1 (n : Name) (l : List (Val F)) :
    measBits (l.map fun a => .gate1 n a.toInt) = [] := by
  induction l with
  | nil => rfl
  | cons a l ih => simpa [measBits] using ih

theorem measBits_map_gate2 {α : Type} (n : Name) (l : List α) (f g : α → Int) :
    measBits (l.map fun a => .gate2 n (f a) (g a)) = [] := by
  induction l with
  | nil => rfl
  | cons a l ih => simpa [measBits] using ih

theorem measBits_mapIdx (l : List (Val F)) (k : Nat) :
    measBits (l.mapIdx fun j a => .measure a.toInt (k + j)) = List.range' k l.length := by
  induction l generalizing k with
  | nil => rfl
  | cons a l ih =>
    rw [List.mapIdx_cons, measBits, List.length_cons, List.range'_succ]
    have := ih (k + 1)
    simp only [Nat.add_assoc, Nat.add_comm 1] at this
    simp [this]

end Plaquette
