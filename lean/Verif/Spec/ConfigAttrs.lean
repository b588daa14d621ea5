import Verif.Model.Config

/-!
# The attributes of the parts of a configuration, and the keywords that change them
-/

namespace Plaquette
variable {F : Type}

/-- The value of an attribute. -/
inductive AttrVal (F : Type)
  | str (s : List Char)
  | noStr (s : Option (List Char))
  | bool (b : Bool)
  | num (n : PyNum)
  | floats (l : List F)
  | lists (l : List (List F))
  | strs (l : List (List Char))
  | distr (d : Distr)

/-- A keyword that may be missing. -/
def keyword (key : String) : Option (AttrVal F) → List (List Char × AttrVal F)
  | none => []
  | some v => [(key.toList, v)]

/-- Attributes by name. -/
def CodeConfig.attrs (c : CodeConfig) : List (List Char × AttrVal F) :=
  [("name".toList, .noStr c.name), ("rounds".toList, .num c.rounds), ("size".toList, .num c.size)]

/-- The keywords of a call. -/
def CodeDict.kwargs (d : CodeDict) : List (List Char × AttrVal F) :=
  keyword "name" (d.name.map .noStr) ++ keyword "rounds" (d.rounds.map .num) ++ keyword "size" (d.size.map .num)

/-- Attributes by name. -/
def DeviceConfig.attrs (c : DeviceConfig) : List (List Char × AttrVal F) := [("name".toList, .str c.name), ("shots".toList, .num c.shots)]

/-- The keywords of a call. -/
def DeviceDict.kwargs (d : DeviceDict) : List (List Char × AttrVal F) := keyword "name" (d.name.map .str) ++ keyword "shots" (d.shots.map .num)

/-- Attributes by name. -/
def CircuitConfig.attrs (c : CircuitConfig) : List (List Char × AttrVal F) :=
  [("circuit_provided".toList, .bool c.provided), ("has_errors".toList, .bool c.hasErrors), ("circuit_path".toList, .str c.path)]

/-- The keywords of a call. -/
def CircuitDict.kwargs (d : CircuitDict) : List (List Char × AttrVal F) :=
  keyword "circuit_provided" (d.provided.map .bool) ++ keyword "has_errors" (d.hasErrors.map .bool) ++ keyword "circuit_path" (d.path.map .str)

/-- Attributes by name. -/
def DecoderConfig.attrs (c : DecoderConfig) : List (List Char × AttrVal F) := [("name".toList, .str c.name), ("weighted".toList, .bool c.weighted)]

/-- Attributes by name. -/
def QubitMeta.attrs (m : QubitMeta F) : List (List Char × AttrVal F) :=
  [("distribution".toList, .str m.distribution), ("params".toList, .floats m.params), ("enabled".toList, .bool m.enabled)]

/-- The keywords of a call. -/
def QubitMetaDict.kwargs (d : QubitMetaDict F) : List (List Char × AttrVal F) :=
  keyword "distribution" (d.distribution.map .str) ++ keyword "params" (d.params.map .floats) ++ keyword "enabled" (d.enabled.map .bool)

/-- Attributes by name. -/
def GateMeta.attrs (m : GateMeta F) : List (List Char × AttrVal F) :=
  [("distribution".toList, .distr m.distribution), ("induced_errors".toList, .strs m.induced), ("params".toList, .lists m.params),
   ("enabled".toList, .bool m.enabled)]

/-- The keywords of a call. -/
def GateMetaDict.kwargs (d : GateMetaDict F) : List (List Char × AttrVal F) :=
  keyword "distribution" (d.distribution.map .distr) ++ keyword "induced_errors" (d.induced.map .strs) ++ keyword "params" (d.params.map .lists) ++
    keyword "enabled" (d.enabled.map .bool)

end Plaquette
