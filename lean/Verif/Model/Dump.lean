import Verif.Model.Experiment

/-!
# Model of `ExperimentConfig.dump_json`, `src/plaquette/frontend/__init__.py`

`json.dump` of the python library: the parts of the text are written to the file one after the other, until a value is met that
is no text, number, truth value, `None`, list or dictionary; then a `TypeError` is raised.
-/

namespace Plaquette

/-- A python value; `obj` is an object of any other class (a number is given by its text). -/
inductive PyVal
  | none
  | bool (b : Bool)
  | num (text : List Char)
  | str (s : List Char)
  | list (l : List PyVal)
  | dict (d : List (List Char × PyVal))
  | obj

mutual
/-- `json.dump`: what is written, and the exception. `quote` is the text of a string. -/
def jsonDump (quote : List Char → List Char) : PyVal → List Char × Except Err Unit
  | .none => ("null".toList, .ok ())
  | .bool true => ("true".toList, .ok ())
  | .bool false => ("false".toList, .ok ())
  | .num t => (t, .ok ())
  | .str s => (quote s, .ok ())
  | .list l =>
    match jsonItems quote true l with
    | (t, .ok ()) => ('[' :: t ++ [']'], .ok ())
    | (t, .error e) => ('[' :: t, .error e)
  | .dict d =>
    match jsonPairs quote true d with
    | (t, .ok ()) => ('{' :: t ++ ['}'], .ok ())
    | (t, .error e) => ('{' :: t, .error e)
  | .obj => ([], .error .typeError)

/-- The items of a list. -/
def jsonItems (quote : List Char → List Char) : Bool → List PyVal → List Char × Except Err Unit
  | _, [] => ([], .ok ())
  | first, v :: l =>
    match jsonDump quote v with
    | (t, .error e) => ((if first then [] else ", ".toList) ++ t, .error e)
    | (t, .ok ()) =>
      match jsonItems quote false l with
      | (t', r) => ((if first then [] else ", ".toList) ++ t ++ t', r)

/-- The entries of a dictionary. -/
def jsonPairs (quote : List Char → List Char) : Bool → List (List Char × PyVal) → List Char × Except Err Unit
  | _, [] => ([], .ok ())
  | first, (k, v) :: l =>
    match jsonDump quote v with
    | (t, .error e) => ((if first then [] else ", ".toList) ++ quote k ++ ": ".toList ++ t, .error e)
    | (t, .ok ()) =>
      match jsonPairs quote false l with
      | (t', r) => ((if first then [] else ", ".toList) ++ quote k ++ ": ".toList ++ t ++ t', r)
end

/-- `self.__dict__` of an `ExperimentConfig`, `frontend/__init__.py:1789-1832`: the configurations are objects, `general_conf` is a
dictionary; `objs` are the values of `_code` ... `_decoder`. -/
def experimentDict (general : PyVal) (objs : List (List Char × PyVal)) : PyVal :=
  .dict ([("code_conf".toList, .obj), ("errors_conf".toList, .obj), ("general_conf".toList, general), ("device_conf".toList, .obj),
    ("circuit_conf".toList, .obj), ("decoder_conf".toList, .obj)] ++ objs)

/-- `dump_json`, `frontend/__init__.py:2246-2249`: the content of the file (`old` before) and the exception. `open(path, "w")` empties
the file. -/
def dumpJson (quote : List Char → List Char) (_old : List Char) (general : PyVal) (objs : List (List Char × PyVal)) :
    List Char × Except Err Unit :=
  jsonDump quote (experimentDict general objs)

end Plaquette
