import Verif.Lemmas.Frontend
import Verif.Props.Generator
import Verif.Props.Codes

/-!
# Properties of the configuration (C49, C63, C64, C65)
-/

namespace Plaquette
variable {F : Type}

/-! ### C49: sizes and rounds -/

/-- **C49**: a code with a size is only accepted with a positive size and a positive number of rounds, and only the known names
are accepted. -/
def C49_statement : Prop := ∀ (name : List Char) (rounds size : Int) (c' : CodeConfig),
  CodeConfig.postInit ⟨some name, .int rounds, .int size⟩ = .ok c' →
    name ∈ validCodes ∧ (name ∈ (["RotatedPlanarCode".toList, "PlanarCode".toList, "ToricCode".toList, "RepetitionCode".toList] : List (List Char)) →
      0 < size ∧ 0 < rounds)

/-- Size zero and zero rounds are accepted. -/
theorem C49_zero_counterexample : ¬ C49_statement := by
  intro h
  have := (h "PlanarCode".toList 0 0 _ rfl).2 (by decide)
  exact absurd this.1 (by decide)

/-- **C49 (partial)**: exactly the following configurations are accepted: the two small codes with anything as size and number
of rounds (the size is then -1), and the codes with a size if size and number of rounds are natural numbers (or booleans). -/
theorem C49_accepts_partial (c c' : CodeConfig) : c.postInit = .ok c' ↔ ∃ name, c.name = some name ∧
    ((name ∈ (["FiveQubitCode".toList, "ShorCode".toList] : List (List Char)) ∧ c' = ⟨c.name, c.rounds, .int (-1)⟩) ∨
     (name ∈ (["RotatedPlanarCode".toList, "PlanarCode".toList, "ToricCode".toList, "RepetitionCode".toList] : List (List Char)) ∧
       c' = c ∧ c.size.nat?.isSome ∧ c.rounds.nat?.isSome)) := by
  obtain ⟨nm, r, s⟩ := c
  unfold CodeConfig.postInit
  dsimp only
  cases nm with
  | none =>
    dsimp only
    constructor
    · intro h; cases h
    · rintro ⟨_, h, _⟩; cases h
  | some name =>
    dsimp only
    have e1 : validCodes.drop 4 = (["FiveQubitCode".toList, "ShorCode".toList] : List (List Char)) := rfl
    have e2 : validCodes.take 4 = (["RotatedPlanarCode".toList, "PlanarCode".toList, "ToricCode".toList, "RepetitionCode".toList] : List (List Char)) := rfl
    have e3 : name ∈ validCodes ↔ name ∈ validCodes.take 4 ∨ name ∈ validCodes.drop 4 := by
      conv_lhs => rw [← List.take_append_drop 4 validCodes]
      exact List.mem_append
    have e4 : ∀ n ∈ validCodes.take 4, n ∉ validCodes.drop 4 := by decide
    rw [← e1, ← e2]
    by_cases hv : name ∈ validCodes
    · rw [if_neg (not_not_intro hv)]
      by_cases hs : name ∈ validCodes.drop 4
      · rw [if_pos hs]
        constructor
        · intro h
          refine ⟨name, rfl, .inl ⟨hs, ?_⟩⟩
          cases h; rfl
        · rintro ⟨n, hn, h⟩
          cases hn
          rcases h with ⟨_, h⟩ | ⟨h, _⟩
          · rw [h]
          · exact absurd hs (e4 _ h)
      · rw [if_neg hs]
        have ht : name ∈ validCodes.take 4 := (e3.1 hv).resolve_right hs
        have key : (match CodeConfig.negative ⟨some name, r, s⟩ with
            | .error e => .error e
            | .ok neg => if neg || (!(s.isInt && r.isInt) && decide (name ∈ validCodes.take 4)) then .error .valueError
              else .ok ⟨some name, r, s⟩ : Except Err CodeConfig) = .ok c' ↔
            c' = ⟨some name, r, s⟩ ∧ s.nat?.isSome ∧ r.nat?.isSome := by
          have iff : ∀ (neg : Bool), ((if neg || (!(s.isInt && r.isInt) && decide (name ∈ validCodes.take 4)) then .error .valueError
              else .ok ⟨some name, r, s⟩ : Except Err CodeConfig) = .ok c') ↔ (neg = false ∧ s.isInt = true ∧ r.isInt = true ∧ c' = ⟨some name, r, s⟩) := by
            intro neg
            rw [decide_eq_true ht]
            cases neg <;> cases s.isInt <;> cases r.isInt <;> simp [eq_comm]
          unfold CodeConfig.negative
          cases s with
          | other => simp [PyNum.ltZero, PyNum.nat?]
          | flt neg =>
            cases neg
            · cases r <;> simp only [PyNum.ltZero, iff] <;> simp [PyNum.nat?, PyNum.isInt]
            · simp only [PyNum.ltZero, iff]; simp [PyNum.nat?, PyNum.isInt]
          | bool b =>
            cases r <;> simp only [PyNum.ltZero, iff] <;> simp [PyNum.nat?, PyNum.isInt]
            rename_i i
            by_cases hi : i < 0
            · simp [hi, not_le.2 hi]
            · simp [hi, not_lt.1 hi]
          | int j =>
            by_cases hj : j < 0
            · simp only [PyNum.ltZero, hj, decide_true, iff]; simp [PyNum.nat?, not_le.2 hj]
            · cases r <;> simp only [PyNum.ltZero, hj, decide_false, iff] <;> simp [PyNum.nat?, PyNum.isInt, not_lt.1 hj]
              rename_i i
              by_cases hi : i < 0
              · simp [hi, not_le.2 hi]
              · simp [hi, not_lt.1 hi]
        refine key.trans ?_
        constructor
        · rintro ⟨h1, h2, h3⟩
          exact ⟨name, rfl, .inr ⟨ht, h1, h2, h3⟩⟩
        · rintro ⟨n, hn, h⟩
          cases hn
          rcases h with ⟨h, _⟩ | ⟨_, h⟩
          · exact absurd h hs
          · exact h
    · rw [if_pos hv]
      constructor
      · intro h; cases h
      · rintro ⟨n, hn, h⟩
        cases hn
        exact absurd (e3.2 (h.elim (fun h => .inr h.1) fun h => .inl h.1)) hv

example : CodeConfig.postInit ⟨some "ToricCode".toList, .int 2, .int 3⟩ = .ok ⟨some "ToricCode".toList, .int 2, .int 3⟩ := by
  decide +kernel

/-- **C49**: an accepted configuration with size at least two (an odd size for the repetition code) makes a code with the given
number of rounds, and this code is valid. -/
theorem C49_instantiate (c c' : CodeConfig) (r : Nat) (h : c.postInit = .ok c') (hr : c.rounds = .int r)
    (hsize : c.name ≠ some "FiveQubitCode".toList → c.name ≠ some "ShorCode".toList → ∃ s : Nat, c.size = .int s ∧ 2 ≤ s ∧
      (c.name = some "RepetitionCode".toList → s % 2 = 1)) :
    ∃ code, c'.instantiate = .ok code ∧ Made r code ∧ code.code.Valid ∧ code.nRounds = r := by
  have fin : ∀ {L : Lattice}, L.Wf → L.Comm → L.Full → ∃ code, mkLatCode L r = .ok code ∧ code.code.Valid ∧ code.nRounds = r :=
    fun hw hc hf => by
      obtain ⟨k, h1, h2, _, h3⟩ := valid_of_lattice hw hc hf r
      exact ⟨k, h1, h2, h3⟩
  have hnat : PyNum.nat? (.int (r : Int)) = some r := by simp [PyNum.nat?]
  obtain ⟨name, hn, h⟩ := (C49_accepts_partial c c').1 h
  have hnames : name = "FiveQubitCode".toList ∨ name = "ShorCode".toList ∨ name = "RotatedPlanarCode".toList ∨ name = "PlanarCode".toList ∨
      name = "ToricCode".toList ∨ name = "RepetitionCode".toList := by
    rcases h with ⟨h, _⟩ | ⟨h, _⟩ <;> simp only [List.mem_cons, List.not_mem_nil, or_false] at h
    · exact h.elim .inl fun h => .inr (.inl h)
    · exact .inr (.inr h)
  have hsmall : name = "FiveQubitCode".toList ∨ name = "ShorCode".toList → c' = ⟨c.name, c.rounds, .int (-1)⟩ := by
    intro hx
    rcases h with ⟨_, h⟩ | ⟨h, _⟩
    · exact h
    · rcases hx with rfl | rfl <;> exact absurd h (by decide)
  have hbig : name ≠ "FiveQubitCode".toList → name ≠ "ShorCode".toList → c' = c := by
    intro h1 h2
    rcases h with ⟨h, _⟩ | ⟨_, h, _⟩
    · simp only [List.mem_cons, List.not_mem_nil, or_false] at h
      exact (h.elim h1 h2).elim
    · exact h
  have hs : name ≠ "FiveQubitCode".toList → name ≠ "ShorCode".toList → ∃ s : Nat, c.size = .int s ∧ 2 ≤ s ∧
      (name = "RepetitionCode".toList → s % 2 = 1) := by
    intro h1 h2
    obtain ⟨s, a, b, d⟩ := hsize (by rw [hn]; simpa using h1) (by rw [hn]; simpa using h2)
    exact ⟨s, a, b, fun hx => d (by rw [hn, hx])⟩
  clear hsize h
  obtain ⟨nm, rr, sz⟩ := c
  dsimp only at hn hr hs hsmall hbig
  subst hn hr
  have hnat' : ∀ s : Nat, PyNum.nat? (.int (s : Int)) = some s := by simp [PyNum.nat?]
  rcases hnames with rfl | rfl | rfl | rfl | rfl | rfl
  · rw [hsmall (.inl rfl)]
    obtain ⟨L, hL, hw, hc, hf⟩ := goodResult_spec five_good
    obtain ⟨code, h1, h2, h3⟩ := fin hw hc hf
    have hmk : makeFiveQubit r = .ok code := by rw [makeFiveQubit, hL]; exact h1
    refine ⟨code, ?_, .fiveQubit hmk, h2, h3⟩
    rw [CodeConfig.instantiate]
    simp only [hnat]
    rw [if_neg (by decide), if_pos trivial, hmk]
  · rw [hsmall (.inr rfl)]
    obtain ⟨L, hL, hw, hc, hf⟩ := goodResult_spec shor_good
    obtain ⟨code, h1, h2, h3⟩ := fin hw hc hf
    have hmk : makeShor r = .ok code := by rw [makeShor, hL]; exact h1
    refine ⟨code, ?_, .shor hmk, h2, h3⟩
    rw [CodeConfig.instantiate]
    simp only [hnat]
    rw [if_pos trivial, hmk]
  · rw [hbig (by decide) (by decide)]
    obtain ⟨s, rfl, h2s, _⟩ := hs (by decide) (by decide)
    obtain ⟨code, h1, h2, h3⟩ := fin (Rotated.wf (xzzx := false) diagOrder h2s) (Rotated.comm _ h2s) (Rotated.full _ h2s)
    have hmk : makeRotated r s false = .ok code := by rw [makeRotated, Rotated.make h2s diagOrder (by decide)]; exact h1
    refine ⟨code, ?_, .rotated h2s hmk, h2, h3⟩
    rw [CodeConfig.instantiate]
    simp only [hnat']
    rw [if_neg (by decide), if_neg (by decide), if_neg (by decide), if_neg (by decide), if_pos trivial, hmk]
  · rw [hbig (by decide) (by decide)]
    obtain ⟨s, rfl, h2s, _⟩ := hs (by decide) (by decide)
    obtain ⟨code, h1, h2, h3⟩ := fin (Planar.wf s crossOrder (by omega)) (Planar.comm s _ (by omega)) (Planar.full s _ h2s)
    have hmk : makePlanar r s = .ok code := by rw [makePlanar, Planar.make s h2s crossOrder (by decide)]; exact h1
    refine ⟨code, ?_, .planar h2s hmk, h2, h3⟩
    rw [CodeConfig.instantiate]
    simp only [hnat']
    rw [if_neg (by decide), if_neg (by decide), if_neg (by decide), if_pos trivial, hmk]
  · rw [hbig (by decide) (by decide)]
    obtain ⟨s, rfl, h2s, _⟩ := hs (by decide) (by decide)
    obtain ⟨code, h1, h2, h3⟩ := fin (Toric.wf crossOrder h2s) (Toric.comm _ h2s) (Toric.full _ h2s)
    have hmk : makeToric r s = .ok code := by rw [makeToric, Toric.make h2s crossOrder (by decide)]; exact h1
    refine ⟨code, ?_, .toric h2s hmk, h2, h3⟩
    rw [CodeConfig.instantiate]
    simp only [hnat']
    rw [if_neg (by decide), if_neg (by decide), if_neg (by decide), if_neg (by decide), if_neg (by decide), if_pos trivial, hmk]
  · rw [hbig (by decide) (by decide)]
    obtain ⟨s, rfl, h2s, hodd⟩ := hs (by decide) (by decide)
    have h3s : 3 ≤ s := by have := hodd rfl; omega
    obtain ⟨code, h1, h2, h3⟩ := fin (Rep.wf s h3s) (Rep.comm s h3s) (Rep.full s h3s)
    have hmk : makeRepetition r s = .ok code := by rw [makeRepetition, Rep.make s (hodd rfl) h3s]; exact h1
    refine ⟨code, ?_, .repetition h2s hmk, h2, h3⟩
    rw [CodeConfig.instantiate]
    simp only [hnat']
    rw [if_neg (by decide), if_neg (by decide), if_pos trivial, hmk]

/-! ### C63: accepted channels -/

/-- A Pauli error on one or two qubits that is not the identity, by its letters. -/
def PauliName (e : List Char) : Prop := (e.length = 1 ∨ e.length = 2) ∧ (∀ c ∈ e, c ∈ "XYZI".toList) ∧ ∃ c ∈ e, c ≠ 'I'

/-- A distribution with the right number of parameters and a Pauli error. -/
def ChannelOk (d e : List Char) (p : List F) : Prop :=
  (d = "constant".toList ∧ p.length = 1 ∨ d = "gaussian".toList ∧ p.length = 2) ∧ PauliName e

/-- The metadata describe a list of channels, or come from a file, or are empty. -/
def GateMeta.WellFormed (m : GateMeta F) : Prop :=
  match m.distribution with
  | .str s => (s = [] ∨ s = "user".toList) ∧ m.induced = [] ∧ m.params = []
  | .list ds => ds.length = m.induced.length ∧ ds.length = m.params.length ∧
      ∀ (k : Nat) (d e : List Char) (p : List F), ds[k]? = some d → m.induced[k]? = some e → m.params[k]? = some p → ChannelOk d e p

/-- **C63**: gate errors that are accepted are well formed. -/
def C63_statement : Prop := ∀ (m m' : GateMeta Nat), m.postInit = .ok m' → m'.WellFormed

/-- The identity `II` is accepted as an induced error. -/
theorem C63_identity_counterexample : ¬ C63_statement := by
  intro h
  obtain ⟨_, _, h⟩ := h ⟨.list ["constant".toList], ["II".toList], [[1]], true⟩ _ rfl
  obtain ⟨_, _, _, c, hc, h⟩ := h 0 _ _ _ rfl rfl rfl
  simp only [String.toList] at hc
  have : ∀ c ∈ "II".toList, c = 'I' := by decide
  exact h (this c hc)

/-- A misspelt distribution is accepted. -/
theorem C63_string_counterexample : ¬ C63_statement := by
  intro h
  have := (h ⟨.str "gausian".toList, [], [], true⟩ _ rfl).1
  exact absurd this (by decide)

/-- There may be more induced errors than distributions, and then `simulated_errors` raises. -/
theorem C63_short_counterexample : ¬ C63_statement ∧ (∃ m m' : GateMeta Nat, m.postInit = .ok m' ∧ m'.enabled = true ∧ m'.isEmpty = false ∧
    ∃ e, m'.sim = .error e) := by
  refine ⟨fun h => ?_, ⟨.list ["constant".toList], ["X".toList, "Z".toList], [[1], [1]], true⟩, _, rfl, rfl, rfl, .indexError, rfl⟩
  have := (h ⟨.list ["constant".toList], ["X".toList, "Z".toList], [[1], [1]], true⟩ _ rfl).1
  exact absurd this (by decide)

theorem mem_validInduced {e : List Char} : e ∈ validInduced ↔ PauliName e ∨ e = "II".toList := by
  constructor
  · intro h
    have : ∀ e ∈ validInduced, (e.length = 1 ∨ e.length = 2) ∧ (∀ c ∈ e, c ∈ "XYZI".toList) ∧ ((∃ c ∈ e, c ≠ 'I') ∨ e = "II".toList) := by
      decide
    obtain ⟨h1, h2, h3⟩ := this e h
    exact h3.imp (fun h3 => ⟨h1, h2, h3⟩) id
  · have one : ∀ a ∈ "XYZI".toList, a ≠ 'I' → [a] ∈ validInduced := by decide
    have two : ∀ a ∈ "XYZI".toList, ∀ b ∈ "XYZI".toList, [a, b] ∈ validInduced := by decide
    rintro (⟨h1, h2, h3⟩ | rfl)
    · match e, h1, h2, h3 with
      | [a], _, h2, ⟨c, hc, hne⟩ =>
        rw [List.mem_singleton] at hc
        exact one a (h2 a (by simp)) (hc ▸ hne)
      | [a, b], _, h2, _ => exact two a (h2 a (by simp)) b (h2 b (by simp))
      | [], h, _, _ => simp at h
      | _ :: _ :: _ :: _, h, _, _ => simp at h
    · decide

theorem checkChannels_iff (ds es : List (List Char)) (ps : List (List F)) (h1 : ds.length = es.length) (h2 : es.length = ps.length) :
    checkChannels ds es ps = .ok () ↔ ∀ (k : Nat) (d e : List Char) (p : List F), ds[k]? = some d → es[k]? = some e → ps[k]? = some p →
      (d = "constant".toList ∧ p.length = 1 ∨ d = "gaussian".toList ∧ p.length = 2) ∧ e ∈ validInduced := by
  induction ds generalizing es ps with
  | nil => simp [checkChannels]
  | cons d ds ih =>
    match es, ps, h1, h2 with
    | e :: es, p :: ps, h1, h2 =>
      have hcons : (∀ (k : Nat) (d' e' : List Char) (p' : List F), (d :: ds)[k]? = some d' → (e :: es)[k]? = some e' → (p :: ps)[k]? = some p' →
          (d' = "constant".toList ∧ p'.length = 1 ∨ d' = "gaussian".toList ∧ p'.length = 2) ∧ e' ∈ validInduced) ↔
          ((d = "constant".toList ∧ p.length = 1 ∨ d = "gaussian".toList ∧ p.length = 2) ∧ e ∈ validInduced) ∧
          ∀ (k : Nat) (d e : List Char) (p : List F), ds[k]? = some d → es[k]? = some e → ps[k]? = some p →
            (d = "constant".toList ∧ p.length = 1 ∨ d = "gaussian".toList ∧ p.length = 2) ∧ e ∈ validInduced := by
        constructor
        · exact fun h => ⟨h 0 d e p rfl rfl rfl, fun k => h (k + 1)⟩
        · rintro ⟨h0, h⟩ k
          cases k with
          | zero => rintro d' e' p' ⟨⟩ ⟨⟩ ⟨⟩; exact h0
          | succ k => exact h k
      rw [hcons, ← ih es ps (by simpa using h1) (by simpa using h2), checkChannels]
      by_cases he : e ∈ validInduced
      · rw [if_neg (not_not_intro he)]
        have hcg : ("gaussian".toList : List Char) ≠ "constant".toList := by decide
        generalize "constant".toList = co at hcg ⊢
        generalize "gaussian".toList = ga at hcg ⊢
        by_cases hc : d = co
        · rw [if_pos (.inl hc), if_pos hc]
          subst hc
          by_cases hp : p.length = 1 <;> simp [hp, he, Ne.symm hcg]
        · by_cases hg : d = ga
          · rw [if_pos (.inr hg), if_neg hc]
            subst hg
            by_cases hp : p.length = 2 <;> simp [hp, he, hcg]
          · rw [if_neg (by tauto)]
            constructor
            · intro h; cases h
            · rintro ⟨⟨h, _⟩, _⟩; tauto
      · rw [if_pos he]
        constructor
        · intro h; cases h
        · rintro ⟨⟨_, h⟩, _⟩; exact absurd h he

/-- **C63 (partial)**: if there are as many distributions as induced errors and none of these is `II`, the metadata are accepted
exactly if they are well formed. -/
theorem C63_channels_partial (m : GateMeta F) (ds : List (List Char)) (hd : m.distribution = .list ds) (hl : ds.length = m.induced.length)
    (hI : "II".toList ∉ m.induced) : m.postInit = .ok m ↔ m.WellFormed := by
  unfold GateMeta.postInit GateMeta.WellFormed
  rw [hd]
  dsimp only
  by_cases h2 : m.induced.length = m.params.length
  · rw [if_neg (not_not_intro h2)]
    have := checkChannels_iff ds m.induced m.params hl h2
    have e : (∀ (k : Nat) (d e : List Char) (p : List F), ds[k]? = some d → m.induced[k]? = some e → m.params[k]? = some p →
        (d = "constant".toList ∧ p.length = 1 ∨ d = "gaussian".toList ∧ p.length = 2) ∧ e ∈ validInduced) ↔
        ∀ (k : Nat) (d e : List Char) (p : List F), ds[k]? = some d → m.induced[k]? = some e → m.params[k]? = some p → ChannelOk d e p := by
      constructor
      · intro h k d e p a b c
        obtain ⟨h1, h2⟩ := h k d e p a b c
        refine ⟨h1, (mem_validInduced.1 h2).resolve_right fun hx => hI ?_⟩
        rw [← hx]
        exact List.mem_of_getElem? b
      · intro h k d e p a b c
        obtain ⟨h1, h2⟩ := h k d e p a b c
        exact ⟨h1, mem_validInduced.2 (.inl h2)⟩
    rw [e] at this
    constructor
    · intro h
      refine ⟨hl, hl.trans h2, this.1 ?_⟩
      cases hc : checkChannels ds m.induced m.params with
      | ok u => rfl
      | error x => rw [hc] at h; cases h
    · rintro ⟨_, _, h⟩
      rw [this.2 h]
  · rw [if_pos h2]
    constructor
    · intro h; cases h
    · rintro ⟨_, h, _⟩
      exact absurd (hl.symm.trans h) h2

theorem zipChannels_ok (ds es : List (List Char)) (ps : List (List F)) (h1 : ds.length = es.length) (h2 : es.length = ps.length) :
    zipChannels ds es ps = .ok (ds.zip (es.zip ps)) := by
  induction ds generalizing es ps with
  | nil => match es, h1 with | [], _ => rfl
  | cons d ds ih =>
    match es, ps, h1, h2 with
    | e :: es, p :: ps, h1, h2 =>
      rw [zipChannels, ih es ps (by simpa using h1) (by simpa using h2)]
      rfl

/-- **C63**: well formed channels are all passed on to the error table. -/
theorem C63_simulated (m : GateMeta F) (ds : List (List Char)) (hd : m.distribution = .list ds) (h : m.WellFormed) :
    m.sim = .ok (.channels (ds.zip (m.induced.zip m.params))) := by
  unfold GateMeta.WellFormed at h
  rw [hd] at h
  obtain ⟨h1, h2, _⟩ := h
  unfold GateMeta.sim
  rw [hd]
  dsimp only
  rw [zipChannels_ok ds _ _ h1 (h1.symm.trans h2)]

example : (⟨.list ["constant".toList, "gaussian".toList], ["XI".toList, "ZZ".toList], [[1], [2, 3]], true⟩ : GateMeta Nat).postInit =
    .ok ⟨.list ["constant".toList, "gaussian".toList], ["XI".toList, "ZZ".toList], [[1], [2, 3]], true⟩ := rfl

/-- **C63**: the qubit errors that are accepted: the right number of parameters, or no name at all. -/
theorem C63_qubit (m : QubitMeta F) : (∃ m', m.postInit = .ok m') ↔
    (m.distribution = "user".toList ∧ m.params = [] ∨ m.distribution = "constant".toList ∧ m.params.length = 1 ∨
      m.distribution = "gaussian".toList ∧ m.params.length = 2 ∨ m.distribution = []) := by
  unfold QubitMeta.postInit
  dsimp only
  by_cases h1 : m.distribution = "user".toList
  · have h2 : m.distribution ≠ "constant".toList := by rw [h1]; decide
    have h3 : m.distribution ≠ "gaussian".toList := by rw [h1]; decide
    have h4 : m.distribution ≠ [] := by rw [h1]; decide
    rw [if_pos h1]
    cases hp : m.params with
    | nil => simp [h1]
    | cons a l => simp only [h2, h3, h4, List.isEmpty_cons]; simp
  rw [if_neg h1]
  have no : (∃ m' : QubitMeta F, (.error .valueError : Except Err (QubitMeta F)) = .ok m') ↔ False :=
    ⟨(fun ⟨_, h⟩ => by cases h), False.elim⟩
  by_cases h2 : m.distribution = "constant".toList
  · have h3 : m.distribution ≠ "gaussian".toList := by rw [h2]; decide
    have h4 : m.distribution ≠ [] := by rw [h2]; decide
    rw [if_pos h2]
    by_cases hp : m.params.length = 1
    · rw [if_neg (not_not_intro hp)]
      exact ⟨fun _ => .inr (.inl ⟨h2, hp⟩), fun _ => ⟨_, rfl⟩⟩
    · rw [if_pos hp, no, false_iff]
      rintro (⟨h, _⟩ | ⟨_, h⟩ | ⟨h, _⟩ | h)
      · exact h1 h
      · exact hp h
      · exact h3 h
      · exact h4 h
  rw [if_neg h2]
  by_cases h3 : m.distribution = "gaussian".toList
  · have h4 : m.distribution ≠ [] := by rw [h3]; decide
    rw [if_pos h3]
    by_cases hp : m.params.length = 2
    · rw [if_neg (not_not_intro hp)]
      exact ⟨fun _ => .inr (.inr (.inl ⟨h3, hp⟩)), fun _ => ⟨_, rfl⟩⟩
    · rw [if_pos hp, no, false_iff]
      rintro (⟨h, _⟩ | ⟨h, _⟩ | ⟨_, h⟩ | h)
      · exact h1 h
      · exact h2 h
      · exact hp h
      · exact h4 h
  rw [if_neg h3]
  by_cases h4 : m.distribution = []
  · rw [if_pos h4]
    exact ⟨fun _ => .inr (.inr (.inr h4)), fun _ => ⟨_, rfl⟩⟩
  · rw [if_neg h4, no, false_iff]
    rintro (⟨h, _⟩ | ⟨h, _⟩ | ⟨h, _⟩ | h)
    · exact h1 h
    · exact h2 h
    · exact h3 h
    · exact h4 h

/-- Parameters without a name of a distribution are accepted, stay enabled, and have no effect: the column is left at zero. -/
theorem C63_noname : (⟨[], [1], true⟩ : QubitMeta Nat).postInit = .ok ⟨[], [1], true⟩ ∧
    (⟨true, fun _ => ⟨[], [1], true⟩⟩ : QubitConfig Nat).simulated ["X".toList] = some [("X".toList, [], [1])] ∧
    ∀ t : QubitTable Nat, assimilateQubit [] (fun _ => []) t ("X".toList, [], [1]) = .ok t :=
  ⟨rfl, rfl, fun _ => rfl⟩

/-! ### C64: every configured channel reaches the dictionaries of errors -/

/-- **C64**: if gate errors are sampled and well formed, with one letter for gates on one qubit and two for the others, the
dictionaries are made, and the constant channels of the gates are in them for all the ancillas (or pairs) they act on. -/
def C64_statement : Prop := ∀ (r : Nat) (c : LatCode), Made r c → ∀ (q : QubitConfig Nat) (g : GateConfig Nat) (draws : List Char → List Nat),
  q.sample = false → g.sample = true → (∀ key ∈ gateKeys, (g.chan key).WellFormed ∧ ∀ P ∈ (g.chan key).induced, ChannelOf key P) →
  ∃ qd gd, configErrors 0 1 c.lattice [] [] draws draws qubitKeys gateKeys qubitKeys q g = .ok (qd, gd) ∧
    ∀ key ∈ gateKeys, (g.chan key).enabled = true → ∀ (ds : List (List Char)) (k : Nat) (P : List Char) (p : Nat),
      (g.chan key).distribution = .list ds → ds[k]? = some "constant".toList → (g.chan key).induced[k]? = some P →
      (g.chan key).params[k]? = some [p] → ∀ t ∈ c.lattice.gateTargets key,
        ((dictGet gd key).bind (dictGet · t)).bind (dictGet · (P.map Char.toLower)) = some (.flt p)

/-- The configuration of one gate. -/
def onlyGate (key : List Char) (m : GateMeta Nat) : GateConfig Nat := ⟨true, fun k => if k = key then m else .empty⟩

theorem onlyGate_ok {key : List Char} {m : GateMeta Nat} (hm : m.WellFormed) (hP : ∀ P ∈ m.induced, ChannelOf key P) :
    ∀ k ∈ gateKeys, ((onlyGate key m).chan k).WellFormed ∧ ∀ P ∈ ((onlyGate key m).chan k).induced, ChannelOf k P := by
  intro k _
  unfold onlyGate
  dsimp only
  split
  · rename_i h; subst h; exact ⟨hm, hP⟩
  · exact ⟨⟨.inl rfl, rfl, rfl⟩, by simp [GateMeta.empty]⟩

set_option maxRecDepth 100000 in
/-- Of two channels of one gate only the last one is kept. -/
theorem C64_two_counterexample : ¬ C64_statement := by
  intro h
  have hm : GateMeta.WellFormed (⟨.list ["constant".toList, "constant".toList], ["X".toList, "Z".toList], [[1], [2]], true⟩ : GateMeta Nat) := by
    refine ⟨rfl, rfl, fun k d e p h1 h2 h3 => ?_⟩
    match k with
    | 0 => cases h1; cases h2; cases h3; exact ⟨.inl ⟨rfl, rfl⟩, .inl rfl, by decide, 'X', by decide⟩
    | 1 => cases h1; cases h2; cases h3; exact ⟨.inl ⟨rfl, rfl⟩, .inl rfl, by decide, 'Z', by decide⟩
    | k + 2 => cases h1
  obtain ⟨qd, gd, h1, h2⟩ := h 1 _ (rep3_made 1) ⟨false, fun _ => .empty⟩ (onlyGate "H".toList _) (fun _ => []) rfl rfl
    (onlyGate_ok hm (by unfold ChannelOf; decide))
  have h3 := h2 "H".toList (by decide) (by rfl) ["constant".toList, "constant".toList] 0 "X".toList 1 rfl rfl rfl rfl (.int 3) (by decide +kernel)
  have h4 : ((configErrors 0 1 ((Rep.lat 3).latCode 1).lattice [] [] (fun _ => []) (fun _ => []) qubitKeys gateKeys qubitKeys ⟨false, fun _ => .empty⟩
      (onlyGate "H".toList ⟨.list ["constant".toList, "constant".toList], ["X".toList, "Z".toList], [[1], [2]], true⟩)).toOption.bind fun x =>
      ((dictGet x.2 "H".toList).bind (dictGet · (.int 3))).bind (dictGet · ("X".toList.map Char.toLower))) = none := by decide +kernel
  rw [h1] at h4
  have h4 : ((dictGet gd "H".toList).bind (dictGet · (.int 3))).bind (dictGet · ("X".toList.map Char.toLower)) = none := h4
  rw [h3] at h4
  cases h4

set_option maxRecDepth 100000 in
/-- Normally distributed errors of two-qubit gates raise: the name of the channel is taken apart into its letters. -/
theorem C64_gaussian_counterexample : ¬ C64_statement := by
  intro h
  have hm : GateMeta.WellFormed (⟨.list ["gaussian".toList], ["XZ".toList], [[1, 1]], true⟩ : GateMeta Nat) := by
    refine ⟨rfl, rfl, fun k d e p h1 h2 h3 => ?_⟩
    match k with
    | 0 => cases h1; cases h2; cases h3; exact ⟨.inr ⟨rfl, rfl⟩, .inr rfl, by decide, 'X', by decide⟩
    | k + 1 => cases h1
  obtain ⟨qd, gd, h1, _⟩ := h 1 _ (rep3_made 1) ⟨false, fun _ => .empty⟩ (onlyGate "CX".toList _) (fun _ => [1, 1, 1, 1]) rfl rfl
    (onlyGate_ok hm (by unfold ChannelOf; decide))
  have h4 : (configErrors 0 1 ((Rep.lat 3).latCode 1).lattice [] [] (fun _ => [1, 1, 1, 1]) (fun _ => [1, 1, 1, 1]) qubitKeys gateKeys qubitKeys
      ⟨false, fun _ => .empty⟩ (onlyGate "CX".toList ⟨.list ["gaussian".toList], ["XZ".toList], [[1, 1]], true⟩)).toOption.isNone = true := by
    decide +kernel
  rw [h1] at h4
  cases h4

/-- A configuration in which all errors are constant, with at most one channel per gate. -/
structure OneConstant (q : QubitConfig F) (g : GateConfig F) (qspec : List Char → Option F) (gspec : List Char → Option (List Char × F)) :
    Prop where
  qubit : ∀ e ∈ qubitKeys, match qspec e with
    | none => (q.chan e).isEmpty = true ∨ (q.chan e).enabled = false
    | some p => q.chan e = ⟨"constant".toList, [p], true⟩
  gate : ∀ k ∈ gateKeys, match gspec k with
    | none => (g.chan k).isEmpty = true ∨ (g.chan k).enabled = false
    | some (P, p) => g.chan k = ⟨.list ["constant".toList], [P], [[p]], true⟩
  letters : ∀ k ∈ gateKeys, ∀ P p, gspec k = some (P, p) → ChannelOf k P
  fabrication : gspec "fabrication".toList = none

theorem Lattice.Indexed.info {L : Lattice} (h : L.Indexed) (q : Nat) : ((q, true) ∈ L.qubitInfo ↔ ∃ p ∈ L.dataqubits, L.idx p = q) ∧
    ((q, false) ∈ L.qubitInfo ↔ ∃ s ∈ L.stabgens, L.idx s.1 = q) := by
  have ho := h.occ
  unfold Lattice.occupied at ho
  rw [List.nodup_append] at ho
  obtain ⟨hds, _, hl⟩ := ho
  rw [List.nodup_append] at hds
  obtain ⟨_, _, hds⟩ := hds
  unfold Lattice.qubitInfo
  rw [h.equbits]
  constructor
  · rw [List.mem_map]
    constructor
    · rintro ⟨p, _, hp⟩
      rw [Prod.mk.injEq, decide_eq_true_eq] at hp
      exact ⟨p, hp.2, hp.1⟩
    · rintro ⟨p, hp, hq⟩
      refine ⟨p, List.mem_filter.2 ⟨by simp [Lattice.occupied, hp], ?_⟩, by rw [hq, decide_eq_true hp]⟩
      simp only [decide_not, Bool.not_eq_true', decide_eq_false_iff_not]
      exact fun hx => hl p (List.mem_append_left _ hp) p hx rfl
  · rw [List.mem_map]
    constructor
    · rintro ⟨p, hp, hpq⟩
      rw [Prod.mk.injEq, decide_eq_false_iff_not] at hpq
      rw [List.mem_filter] at hp
      obtain ⟨h1, h2⟩ := hp
      simp only [decide_not, Bool.not_eq_true', decide_eq_false_iff_not] at h2
      unfold Lattice.occupied at h1
      rw [List.mem_append, List.mem_append] at h1
      rcases h1 with (h1 | h1) | h1
      · exact absurd h1 hpq.2
      · obtain ⟨s, hs, rfl⟩ := List.mem_map.1 h1
        exact ⟨s, hs, hpq.1⟩
      · exact absurd h1 h2
    · rintro ⟨s, hs, hq⟩
      have hs' : s.1 ∈ L.stabgens.map Prod.fst := List.mem_map_of_mem hs
      refine ⟨s.1, List.mem_filter.2 ⟨by unfold Lattice.occupied; exact List.mem_append_left _ (List.mem_append_right _ hs'), ?_⟩, ?_⟩
      · simp only [decide_not, Bool.not_eq_true', decide_eq_false_iff_not]
        exact fun hx => hl s.1 (List.mem_append_right _ hs') s.1 hx rfl
      · rw [hq, decide_eq_false fun hx => hds s.1 hx s.1 hs' rfl]

/-- **C64 (partial)**: constant errors, with at most one channel per gate, all reach the dictionaries, with the given probability,
for exactly the qubits they are for: Pauli errors and erasure for the data qubits, measurement errors for the ancillas of the
stabilisers, gate errors for the ancillas or for the pairs of ancilla and data qubit. -/
theorem C64_constant_partial (zero tenth : F) (L : Lattice) (hL : L.Indexed) (qcsv : List (List Char × List (Nat × F))) (gcsv : List (GateRow F))
    (qdraws gdraws : List Char → List F) (qorder gorder order : List (List Char)) (hqo : qorder.Perm qubitKeys) (hgo : gorder.Perm gateKeys)
    (ho : order.Perm qubitKeys) (q : QubitConfig F) (g : GateConfig F) (qspec : List Char → Option F)
    (gspec : List Char → Option (List Char × F)) (hq : q.sample = true) (hg : g.sample = true) (h : OneConstant q g qspec gspec) :
    ∃ qd gd, configErrors zero tenth L qcsv gcsv qdraws gdraws qorder gorder order q g = .ok (qd, gd) ∧
      (∀ p ∈ L.dataqubits, ∀ e ∈ (["X".toList, "Y".toList, "Z".toList] : List (List Char)),
        ((dictGet qd "pauli".toList).bind (dictGet · (.int (L.idx p)))).bind (dictGet · (e.map Char.toLower)) = (qspec e).map .flt) ∧
      (∀ p ∈ L.dataqubits,
        ((dictGet qd "erasure".toList).bind (dictGet · (.int (L.idx p)))).bind (dictGet · "p".toList) = (qspec "erasure".toList).map .flt) ∧
      (∀ s ∈ L.stabgens,
        ((dictGet qd "measurement".toList).bind (dictGet · (.int (L.idx s.1)))).bind (dictGet · "p".toList) =
          (qspec "measurement".toList).map .flt) ∧
      (∀ gate ∈ gateKeys, ∀ k, (dictGet gd gate).bind (dictGet · k) =
        if k ∈ L.gateTargets gate then (gspec gate).map fun s => [(s.1.map Char.toLower, .flt s.2)] else none) := by
  obtain ⟨t, qd, h1, h2, h3⟩ := constDict zero L qcsv qdraws qspec (qorder := qorder) (order := order) (fun e he => hqo.mem_iff.1 he)
    (fun e he => hqo.mem_iff.2 he) (fun e he => ho.mem_iff.2 he)
  have hsim := simulated_const qorder hq fun e he => h.qubit e (hqo.mem_iff.1 he)
  have hloop := simLoop_one (c := g) (spec := gspec) gorder fun k hk => h.gate k (hgo.mem_iff.1 hk)
  let es : List (List Char × List Char × F) := gorder.filterMap fun k => (gspec k).map fun s => (k, s)
  have hes : ∀ {e : List Char × List Char × F}, e ∈ es ↔ e.1 ∈ gorder ∧ gspec e.1 = some e.2 := by
    intro e
    rw [List.mem_filterMap]
    constructor
    · rintro ⟨k, hk, he⟩
      obtain ⟨s, hs, rfl⟩ := Option.map_eq_some_iff.1 he
      exact ⟨hk, hs⟩
    · rintro ⟨h1, h2⟩
      exact ⟨e.1, h1, by rw [h2]; rfl⟩
  have hconf : (gorder.filterMap fun k => (gspec k).map fun s => (k, GateSim.channels [("constant".toList, s.1, [s.2])])) =
      es.map fun e => (e.1, GateSim.channels [("constant".toList, e.2.1, [e.2.2])]) := by
    rw [List.map_filterMap]
    refine List.filterMap_congr fun k _ => ?_
    cases gspec k <;> rfl
  have hkeys : es.map Prod.fst = gorder.filter fun k => (gspec k).isSome := by
    rw [List.map_filterMap]
    rw [← List.filterMap_eq_filter]
    refine List.filterMap_congr fun k _ => ?_
    cases hx : gspec k <;> simp [Option.guard, hx]
  have hnd : (es.map Prod.fst).Nodup := by
    rw [hkeys]
    exact (hgo.nodup_iff.2 (by decide)).filter _
  have hfive : ∀ e ∈ es, e.1 ∈ (["CZ".toList, "CX".toList, "H".toList, "R".toList, "M".toList] : List (List Char)) := by
    intro e he
    obtain ⟨ha, hb⟩ := hes.1 he
    have hk := hgo.mem_iff.1 ha
    have hne : e.1 ≠ "fabrication".toList := by
      intro hx
      rw [hx, h.fabrication] at hb
      cases hb
    have : ∀ k ∈ gateKeys, k ≠ "fabrication".toList → k ∈ (["CZ".toList, "CX".toList, "H".toList, "R".toList, "M".toList] : List (List Char)) := by
      decide
    exact this _ hk hne
  have hass := assimilate_one L gcsv gdraws es hfive
  obtain ⟨gd, h4, h5⟩ := rows_dict L (enabled := es.map Prod.fst) es hnd hfive (fun e he => List.mem_map_of_mem he)
    (fun e he => h.letters e.1 (hgo.mem_iff.1 (hes.1 he).1) e.2.1 e.2.2 (hes.1 he).2) []
  have hgsim : g.simulated gorder = .ok (some (es.map fun e => (e.1, GateSim.channels [("constant".toList, e.2.1, [e.2.2])]))) := by
    unfold GateConfig.simulated
    rw [if_neg (by simp [hg]), hloop, hconf]
  refine ⟨qd, gd, ?_, ?_, ?_, ?_, ?_⟩
  · unfold configErrors
    rw [hgsim]
    dsimp only
    rw [hsim]
    unfold errorDicts
    dsimp only
    rw [h1]
    dsimp only
    rw [h2]
    dsimp only
    rw [hass]
    dsimp only
    have : (es.map fun e => (e.1, GateSim.channels [("constant".toList, e.2.1, [e.2.2])])).map Prod.fst = es.map Prod.fst := by
      rw [List.map_map]; rfl
    rw [this, gateDict, h4]
  · intro p hp e he
    have hk : kindOf e = some ("pauli".toList, e.map Char.toLower, true) := by
      unfold kindOf
      rw [if_pos (by simpa using he)]
    have hek : e ∈ qubitKeys := by
      have : ∀ e ∈ (["X".toList, "Y".toList, "Z".toList] : List (List Char)), e ∈ qubitKeys := by decide
      exact this e he
    rw [h3 e _ _ _ _ hek hk, if_pos ((hL.info _).1.2 ⟨p, hp, rfl⟩)]
  · intro p hp
    rw [h3 "erasure".toList "erasure".toList "p".toList true _ (by decide) (by decide), if_pos ((hL.info _).1.2 ⟨p, hp, rfl⟩)]
  · intro s hs
    rw [h3 "measurement".toList "measurement".toList "p".toList false _ (by decide) (by decide), if_pos ((hL.info _).2.2 ⟨s, hs, rfl⟩)]
  · intro gate hgate k
    rw [h5]
    cases hsp : gspec gate with
    | none =>
      have : dictGet es gate = none := dictGet_none.2 fun e he hx => by
        have := (hes.1 he).2
        rw [hx, hsp] at this
        cases this
      rw [this]
      simp [dictGet]
    | some s =>
      have : dictGet es gate = some s := dictGet_of_mem hnd (hes.2 ⟨hgo.mem_iff.2 hgate, hsp⟩)
      rw [this]
      simp [dictGet]

/-- An example: X errors, measurement errors, and an XZ channel after CX. -/
def exampleQubit : QubitConfig Nat :=
  ⟨true, fun e => if e = "X".toList then ⟨"constant".toList, [5], true⟩ else if e = "measurement".toList then ⟨"constant".toList, [7], true⟩ else .empty⟩

example : OneConstant exampleQubit (onlyGate "CX".toList ⟨.list ["constant".toList], ["XZ".toList], [[9]], true⟩)
    (fun e => if e = "X".toList then some 5 else if e = "measurement".toList then some 7 else none)
    (fun k => if k = "CX".toList then some ("XZ".toList, 9) else none) where
  qubit := by
    intro e _
    by_cases h1 : e = "X".toList
    · simp only [h1, if_true]; rfl
    by_cases h2 : e = "measurement".toList
    · have : ("measurement".toList : List Char) ≠ "X".toList := by decide
      simp only [exampleQubit, h2, if_neg this, if_true]
    · simp only [exampleQubit, if_neg h1, if_neg h2]; exact .inl rfl
  gate := by
    intro k _
    by_cases h1 : k = "CX".toList
    · simp only [h1, if_true]; rfl
    · simp only [onlyGate, if_neg h1]; exact .inl rfl
  letters := by
    intro k _ P p h
    by_cases h1 : k = "CX".toList
    · subst h1
      rw [if_pos rfl] at h
      cases h
      unfold ChannelOf
      decide
    · rw [if_neg h1] at h; cases h
  fabrication := by decide

example : (Rep.lat 3).Indexed := ⟨by decide +kernel, by decide +kernel, by decide +kernel⟩

/-! ### C65: nothing is sampled -/

/-- **C65**: if the sampling of qubit and gate errors is switched off, there are no errors. -/
def C65_statement : Prop := ∀ (r : Nat) (c : LatCode), Made r c → ∀ (q : QubitConfig Nat) (g : GateConfig Nat) (draws : List Char → List Nat),
  q.sample = false → g.sample = false → configErrors 0 1 c.lattice [] [] draws draws qubitKeys gateKeys qubitKeys q g = .ok ([], [])

set_option maxRecDepth 100000 in
/-- If both are switched off, there are X, Y and Z errors with probability 0.1 on all data qubits. -/
theorem C65_default_counterexample : ¬ C65_statement := by
  intro h
  have h1 := h 1 _ (rep3_made 1) ⟨false, fun _ => .empty⟩ ⟨false, fun _ => .empty⟩ (fun _ => []) rfl rfl
  have h2 : ((configErrors 0 1 ((Rep.lat 3).latCode 1).lattice [] [] (fun _ => []) (fun _ => []) qubitKeys gateKeys qubitKeys
      (⟨false, fun _ => .empty⟩ : QubitConfig Nat) ⟨false, fun _ => .empty⟩).toOption.bind fun x =>
      ((dictGet x.1 "pauli".toList).bind (dictGet · (.int 0))).bind (dictGet · "x".toList)).isSome = true := by decide +kernel
  rw [h1] at h2
  cases h2

/-- **C65 (partial)**: errors that are switched off do not occur if the other kind of errors is switched on. -/
theorem C65_one_partial (zero tenth : F) (L : Lattice) (qcsv : List (List Char × List (Nat × F))) (gcsv : List (GateRow F))
    (qdraws gdraws : List Char → List F) (qorder gorder order : List (List Char)) (q : QubitConfig F) (g : GateConfig F)
    (qd gd : List (List Char × ErrDict F)) (h : configErrors zero tenth L qcsv gcsv qdraws gdraws qorder gorder order q g = .ok (qd, gd)) :
    (q.sample = false → g.sample = true → qd = []) ∧ (g.sample = false → gd = []) := by
  unfold configErrors at h
  cases hg : g.sample with
  | false =>
    refine ⟨(fun _ h => by cases h), fun _ => ?_⟩
    have : g.simulated gorder = .ok none := by unfold GateConfig.simulated; rw [hg]; rfl
    rw [this] at h
    dsimp only at h
    unfold errorDicts at h
    cases hs : q.simulated qorder with
    | none =>
      rw [hs] at h
      dsimp only at h
      split at h
      · cases h
      · cases h; rfl
    | some conf =>
      rw [hs] at h
      dsimp only at h
      split at h
      · cases h
      · cases h; rfl
  | true =>
    refine ⟨fun hq _ => ?_, (fun h => by cases h)⟩
    have hs : q.simulated qorder = none := by unfold QubitConfig.simulated; rw [hq]; rfl
    rw [hs] at h
    cases hl : g.simulated gorder with
    | error x => rw [hl] at h; cases h
    | ok gc =>
      rw [hl] at h
      cases gc with
      | none =>
        unfold GateConfig.simulated at hl
        rw [hg] at hl
        simp only [Bool.not_true, Bool.false_eq_true, if_false] at hl
        split at hl <;> cases hl
      | some conf =>
        unfold errorDicts at h
        dsimp only at h
        split at h
        · cases h
        · cases h; rfl

/-! ### Defaults, updates, files, devices -/

/-- **C49**: what a dictionary does not give is one round and no size; an accepted configuration has the name of the dictionary, and unless the
code has no size, the given size (so a code with a size is refused if the size is missing). -/
theorem C49_fromDict (d : CodeDict) (c : CodeConfig) (h : CodeConfig.fromDict d = .ok c) : some c.name = d.name ∧
    c.rounds = (match d.rounds with | some r => r | none => .int 1) ∧
    (c.name ≠ some "FiveQubitCode".toList → c.name ≠ some "ShorCode".toList → d.size = some c.size) := by
  obtain ⟨name, hn, h1 | ⟨_, h2, h3, _⟩⟩ := (C49_accepts_partial _ _).1 h
  · obtain ⟨dn, dr, ds⟩ := d
    obtain ⟨hm, h1⟩ := h1
    subst h1
    have hdn : dn = some (some name) := by cases dn <;> simp_all
    subst hdn
    refine ⟨rfl, by cases dr <;> rfl, fun h4 h5 => ?_⟩
    simp only [List.mem_cons, List.not_mem_nil, or_false] at hm
    rcases hm with rfl | rfl
    · exact absurd rfl h4
    · exact absurd rfl h5
  · obtain ⟨dn, dr, ds⟩ := d
    subst h2
    have hdn : dn = some (some name) := by cases dn <;> simp_all
    subst hdn
    refine ⟨rfl, by cases dr <;> rfl, fun _ _ => ?_⟩
    cases ds with
    | none => simp [PyNum.nat?] at h3
    | some s => rfl

/-- **C49**: an update changes what the dictionary gives, and nothing else (but the size of a code without a size). -/
theorem C49_update (c c' : CodeConfig) (d : CodeDict) (h : c.update d = .ok c') :
    c'.name = (match d.name with | some n => n | none => c.name) ∧ c'.rounds = (match d.rounds with | some r => r | none => c.rounds) ∧
    (c'.name ≠ some "FiveQubitCode".toList → c'.name ≠ some "ShorCode".toList → c'.size = match d.size with | some s => s | none => c.size) := by
  obtain ⟨dn, dr, ds⟩ := d
  obtain ⟨name, hn, ⟨hm, rfl⟩ | ⟨_, rfl, _⟩⟩ := (C49_accepts_partial _ _).1 h
  · refine ⟨by cases dn <;> rfl, by cases dr <;> rfl, fun h4 h5 => ?_⟩
    simp only [List.mem_cons, List.not_mem_nil, or_false] at hm
    dsimp only at hn h4 h5
    rw [hn] at h4 h5
    rcases hm with rfl | rfl
    · exact absurd rfl h4
    · exact absurd rfl h5
  · exact ⟨by cases dn <;> rfl, by cases dr <;> rfl, fun _ _ => by cases ds <;> rfl⟩

/-- An accepted dictionary and an accepted update. -/
example : CodeConfig.fromDict ⟨some (some "PlanarCode".toList), none, some (.int 5)⟩ = .ok ⟨some "PlanarCode".toList, .int 1, .int 5⟩ ∧
    CodeConfig.update ⟨some "PlanarCode".toList, .int 1, .int 5⟩ ⟨none, some (.int 3), none⟩ = .ok ⟨some "PlanarCode".toList, .int 3, .int 5⟩ := by
  constructor <;> rfl

/-- **C64**: the errors of gates with two qubits are those of the pairs of an ancilla (first) and a data qubit that are joined by an edge of the lattice;
those of gates with one qubit are of the ancillas. -/
theorem C64_targets (L : Lattice) (gate : List Char) (k : QKey) : k ∈ L.gateTargets gate ↔
    if gate = "CX".toList ∨ gate = "CZ".toList then ∃ e ∈ L.edges, (∃ g, (e.op, g) ∈ L.stabgens) ∧ k = .tup [(L.idx e.op : Int), (L.idx e.data : Int)]
    else ∃ s ∈ L.stabgens, k = .int (L.idx s.1 : Int) := by
  unfold Lattice.gateTargets
  split
  · simp only [Lattice.gatePairs, List.mem_map, List.mem_flatMap, Lattice.opEdges, List.mem_filter, decide_eq_true_eq]
    constructor
    · rintro ⟨q, ⟨⟨o, g⟩, hs, e, ⟨he, rfl⟩, rfl⟩, rfl⟩
      exact ⟨e, he, ⟨g, hs⟩, rfl⟩
    · rintro ⟨e, he, ⟨g, hg⟩, rfl⟩
      exact ⟨_, ⟨_, hg, e, ⟨he, rfl⟩, rfl⟩, rfl⟩
  · simp only [List.mem_map]
    exact ⟨fun ⟨s, hs, h⟩ => ⟨s, hs, h.symm⟩, fun ⟨s, hs, h⟩ => ⟨s, hs, h.symm⟩⟩

/-- **C64**: errors that are given in a file are those of the file, and zero for the qubits that are not in the file. -/
theorem C64_file (zero : F) (L : Lattice) (hnd : (L.qubitInfo.map Prod.fst).Nodup) (csv : List (List Char × List (Nat × F))) (draws : List Char → List F)
    (e : List Char) (he : e ∈ qubitKeys) (ps : List F) (new : List (Nat × F)) (hcsv : dictGet csv e = some new) :
    ∃ t, assimilateQubits zero L csv draws [(e, "user".toList, ps)] = .ok t ∧
      ∀ q ∈ L.qubitInfo, t.cell e q.1 = .ok (match dictGet new q.1 with | some p => p | none => zero) := by
  have hne : csv.isEmpty = false := by cases csv with
    | nil => cases hcsv
    | cons a l => rfl
  refine ⟨⟨L.qubitInfo, dictSet [(e, L.qubitInfo.map fun _ => zero)] e
    (updateCol L.qubitInfo ((dictGet [(e, L.qubitInfo.map fun _ => zero)] e).getD []) new)⟩, ?_, fun q hq => ?_⟩
  · unfold assimilateQubits
    rw [if_neg (by simpa using he)]
    simp only [List.map_cons, List.map_nil, foldE, assimilateQubit]
    rw [if_neg (by decide), if_neg (by decide), if_pos trivial, hne]
    simp only [Bool.false_eq_true, if_false, hcsv]
  · have hcol : dictGet (dictSet [(e, L.qubitInfo.map fun _ => zero)] e
        (updateCol L.qubitInfo ((dictGet [(e, L.qubitInfo.map fun _ => zero)] e).getD []) new)) e =
        some (L.qubitInfo.map fun q => (match dictGet new q.1 with | some p => p | none => zero)) := by
      have h1 : dictGet [(e, L.qubitInfo.map fun _ => zero)] e = some (L.qubitInfo.map fun _ => zero) := by simp [dictGet]
      rw [h1, Option.getD_some]
      have h2 : updateCol L.qubitInfo (L.qubitInfo.map fun _ => zero) new =
          L.qubitInfo.map fun q => (match dictGet new q.1 with | some p => p | none => zero) := by
        unfold updateCol
        rw [List.zipWith_map_right, List.zipWith_self]
        refine List.map_congr_left fun a _ => ?_
        cases dictGet new a.1 <;> rfl
      rw [h2]
      simp [dictGet, dictSet]
    unfold QubitTable.cell
    rw [hcol]
    dsimp only
    have h3 : dictGet ((L.qubitInfo.zip (L.qubitInfo.map fun q => (match dictGet new q.1 with | some p => p | none => zero))).map fun x => (x.1.1, x.2)) q.1 =
        some (match dictGet new q.1 with | some p => p | none => zero) := by
      clear hcol
      generalize L.qubitInfo = l at hnd hq
      induction l with
      | nil => cases hq
      | cons a l ih =>
        rw [List.map_cons, List.nodup_cons] at hnd
        rcases List.mem_cons.1 hq with rfl | hq
        · simp [dictGet]
        · have hne : a.1 ≠ q.1 := fun h => hnd.1 (h ▸ List.mem_map_of_mem hq)
          have := ih hnd.2 hq
          simpa [dictGet, hne] using this
    rw [h3]

/-- The hypotheses are met by the planar code of size 3 and a file with an error on qubit 2. -/
example : ((Planar.lat 3 crossOrder).qubitInfo.map Prod.fst).Nodup ∧ "X".toList ∈ qubitKeys ∧
    dictGet [("X".toList, [(2, (1 : Nat))])] "X".toList = some [(2, 1)] := by
  refine ⟨?_, ?_, ?_⟩ <;> decide +kernel

/-- **C63**: a device is accepted exactly if its name is known and the number of shots is a positive integer (`True` is one). -/
theorem C63_device (devices : List (List Char)) (name : List Char) (shots : PyNum) : deviceCheck devices name shots = .ok () ↔
    name ∈ devices ∧ ((∃ n : Nat, 0 < n ∧ shots = .int n) ∨ shots = .bool true) := by
  unfold deviceCheck
  by_cases hn : name ∈ devices
  · simp only [hn, not_true, if_false, true_and]
    cases shots with
    | int i =>
      dsimp only
      split
      · next h => exact ⟨fun _ => .inl ⟨i.toNat, by omega, by rw [Int.toNat_of_nonneg (by omega)]⟩, fun _ => rfl⟩
      · next h =>
        refine ⟨fun h => (by cases h), ?_⟩
        rintro (⟨n, h1, h2⟩ | h2)
        · cases h2; omega
        · cases h2
    | bool b => cases b <;> simp
    | flt b => simp
    | other => simp
  · simp [hn]

/-- A device that is accepted. -/
example : deviceCheck ["clifford".toList] "clifford".toList (.int 1024) = .ok () := by rfl

end Plaquette
