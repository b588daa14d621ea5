import Verif.Model.Dump

/-!
# Properties of the saved configuration (C108)
-/

namespace Plaquette

mutual
/-- A value without objects of other classes. -/
def PyVal.Plain : PyVal → Prop
  | .list l => PlainItems l
  | .dict d => PlainPairs d
  | .obj => False
  | _ => True

/-- The items of a list. -/
def PlainItems : List PyVal → Prop
  | [] => True
  | v :: l => v.Plain ∧ PlainItems l

/-- The values of a dictionary. -/
def PlainPairs : List (List Char × PyVal) → Prop
  | [] => True
  | (_, v) :: l => v.Plain ∧ PlainPairs l
end

/-- **C108** as documented: the configuration is saved. -/
def C108_statement : Prop :=
  ∀ (quote : List Char → List Char) (old : List Char) (general : PyVal) (objs : List (List Char × PyVal)), general.Plain →
    (dumpJson quote old general objs).2 = .ok ()

/-- **C108** No configuration can be saved: `dump_json` always raises a `TypeError` (the configurations are objects), and the file has
then only the beginning of a text, whatever it had before. -/
theorem C108_never (quote : List Char → List Char) (old : List Char) (general : PyVal) (objs : List (List Char × PyVal)) :
    dumpJson quote old general objs = ('{' :: (quote "code_conf".toList ++ ": ".toList), .error .typeError) := by
  unfold dumpJson experimentDict
  simp [jsonDump, jsonPairs]

/-- **C108** is false. -/
theorem C108_counterexample : ¬ C108_statement := by
  intro h
  have := h id [] .none [] trivial
  rw [C108_never] at this
  cases this

mutual
theorem plain_dump (quote : List Char → List Char) : ∀ {v : PyVal}, v.Plain → (jsonDump quote v).2 = .ok ()
  | .none, _ => by simp [jsonDump]
  | .bool true, _ => by simp [jsonDump]
  | .bool false, _ => by simp [jsonDump]
  | .num _, _ => by simp [jsonDump]
  | .str _, _ => by simp [jsonDump]
  | .list l, h => by
    have := plain_items quote (first := true) (l := l) (by rwa [PyVal.Plain] at h)
    rw [jsonDump]
    split
    · rfl
    · rename_i hj; rw [hj] at this; cases this
  | .dict d, h => by
    have := plain_pairs quote (first := true) (d := d) (by rwa [PyVal.Plain] at h)
    rw [jsonDump]
    split
    · rfl
    · rename_i hj; rw [hj] at this; cases this
  | .obj, h => by rw [PyVal.Plain] at h; exact h.elim

theorem plain_items (quote : List Char → List Char) : ∀ {first : Bool} {l : List PyVal}, PlainItems l → (jsonItems quote first l).2 = .ok ()
  | _, [], _ => by rw [jsonItems]
  | first, v :: l, h => by
    rw [PlainItems] at h
    have h1 := plain_dump quote h.1
    have h2 := plain_items quote (first := false) h.2
    rw [jsonItems]
    split
    · rename_i hj; rw [hj] at h1; cases h1
    · exact h2

theorem plain_pairs (quote : List Char → List Char) : ∀ {first : Bool} {d : List (List Char × PyVal)}, PlainPairs d →
    (jsonPairs quote first d).2 = .ok ()
  | _, [], _ => by rw [jsonPairs]
  | first, (k, v) :: l, h => by
    rw [PlainPairs] at h
    have h1 := plain_dump quote h.1
    have h2 := plain_pairs quote (first := false) h.2
    rw [jsonPairs]
    split
    · rename_i hj; rw [hj] at h1; cases h1
    · exact h2
end

/-- **C108** for values without objects (missing: the attributes of an `ExperimentConfig` are objects): they are saved. So the
dictionary from which a configuration was made could be saved, the configuration cannot. -/
theorem C108_plain_partial (quote : List Char → List Char) {v : PyVal} (h : v.Plain) : (jsonDump quote v).2 = .ok () := plain_dump quote h

/-- A dictionary like the one given to `ExperimentConfig.from_dict`. -/
def exampleConf : PyVal :=
  .dict [("code".toList, .dict [("name".toList, .str "ShorCode".toList), ("rounds".toList, .num ['2'])]),
    ("params".toList, .list [.num ['1'], .bool true, .none])]

example : exampleConf.Plain := by simp [exampleConf, PyVal.Plain, PlainPairs, PlainItems]

example : (jsonDump (fun s => '"' :: s ++ ['"']) exampleConf).1 =
    "{\"code\": {\"name\": \"ShorCode\", \"rounds\": 2}, \"params\": [1, true, null]}".toList := by decide +kernel

end Plaquette
