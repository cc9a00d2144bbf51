/-
Decoding of YAML trees as github.com/buildkite/yaml (yaml.v2) does it.  The library is not part
of /repo and not in the sandbox: this file states what it is trusted to do.  A document is a tree
of nodes whose scalars are resolved and whose aliases and merge keys are expanded.  `null` is a
null that the library recognises before it calls a decoder: `null`, `~` or nothing.

`unmarshal` fills an existing Go value.  Type errors are collected and do not stop it: a list
loses the elements that cannot be decoded, a struct or map the fields.  Not modelled: duplicate
anchors, binary tags, timestamps, `strict` mode, and nulls spelled `Null` or `NULL`, for which
the library calls `UnmarshalYAML`.
-/
import Verif.Model.Types

namespace Drone
namespace Yaml

/-- What a scalar that is not null resolves to. -/
inductive Scalar where
  | str
  | bool (b : Bool)
  | int (i : Int)
  | float (q : Rat)
  deriving DecidableEq, Repr, Inhabited

/-- A node. -/
inductive Node where
  | null
  | scalar (text : String) (r : Scalar)
  | seq (xs : List Node)
  | map (kvs : List (Node × Node))
  deriving Inhabited, Repr

/-- Result of filling a value: the value left, whether the caller keeps it (the Boolean the
library's `unmarshal` returns), and whether a type error was recorded. -/
structure Res (α : Type) where
  val : α
  good : Bool := true
  err : Bool := false
  deriving Repr

/-- Filling a value of type `α`, given what it contains. -/
abbrev Dec (α : Type) := Node → α → Res α

/-- The value stays, with a type error. -/
def mismatch {α : Type} (old : α) : Res α := { val := old, good := false, err := true }

/-- Into a `string`: the text of any scalar. -/
def decString : Dec String
  | .null, _ => { val := "" }
  | .scalar t _, _ => { val := t }
  | _, old => mismatch old

/-- The conversion `int64(f)` of a float; one out of range becomes the least integer, as on
amd64. -/
def truncInt (q : Rat) : Int :=
  let i := Int.tdiv q.num q.den
  if -2 ^ 63 ≤ i ∧ i < 2 ^ 63 then i else -2 ^ 63

/-- Into an `int` or `int64`, both of 64 bits.  Integers out of range are refused.  Floats are
truncated if they are at most `math.MaxInt64`, which as a float is 2^63. -/
def decInt : Dec Int
  | .null, _ => { val := 0 }
  | .scalar _ (.int i), old => if -2 ^ 63 ≤ i ∧ i < 2 ^ 63 then { val := i } else mismatch old
  | .scalar _ (.float q), old => if q ≤ 2 ^ 63 then { val := truncInt q } else mismatch old
  | _, old => mismatch old

/-- Into a `float64`. -/
def decFloat : Dec Rat
  | .null, _ => { val := 0 }
  | .scalar _ (.int i), _ => { val := i }
  | .scalar _ (.float q), _ => { val := q }
  | _, old => mismatch old

/-- Into a `bool`. -/
def decBool : Dec Bool
  | .null, _ => { val := false }
  | .scalar _ (.bool b), _ => { val := b }
  | _, old => mismatch old

/-- The elements of a list: those not good are left out. -/
def decElems {α : Type} (zero : α) (d : Dec α) : List Node → Res (List α)
  | [] => { val := [] }
  | x :: xs =>
    let r := d x zero
    let rs := decElems zero d xs
    { val := if r.good then r.val :: rs.val else rs.val, err := r.err || rs.err }

/-- Into a slice. -/
def decSlice {α : Type} (zero : α) (d : Dec α) : Dec (List α)
  | .null, _ => { val := [] }
  | .seq xs, _ => decElems zero d xs
  | _, old => mismatch old

/-- The entries of a `map[string]T`. -/
def decEntries {α : Type} (zero : α) (d : Dec α) : List (Node × Node) → GoMap α → Res (GoMap α)
  | [], m => { val := m }
  | (k, v) :: kvs, m =>
    let rk := decString k ""
    let rv := d v zero
    let r := decEntries zero d kvs (if rk.good && rv.good then m.set rk.val rv.val else m)
    { val := r.val, err := rk.err || (rk.good && rv.err) || r.err }

/-- Into a `map[string]T` (null empties it). -/
def decMap {α : Type} (zero : α) (d : Dec α) : Dec (GoMap α)
  | .null, _ => { val := [] }
  | .map kvs, old => decEntries zero d kvs old
  | _, old => mismatch old

/-- Into a pointer: null makes it nil, anything else allocates. -/
def decPtr {α : Type} (zero : α) (d : Dec α) : Dec (Option α)
  | .null, _ => { val := none }
  | n, old =>
    let r := d n (old.getD zero)
    { val := some r.val, good := r.good, err := r.err }

/-- A struct field: how to fill it, and whether that records an error. -/
abbrev Field (σ : Type) := Node → σ → σ × Bool

/-- A field with its decoder. -/
def field {σ α : Type} (get : σ → α) (set : σ → α → σ) (d : Dec α) : Field σ := fun n s =>
  let r := d n (get s)
  (set s r.val, r.err)

/-- The entries of a struct; unknown keys are ignored. -/
def decFields {σ : Type} (fields : String → Option (Field σ)) : List (Node × Node) → σ → Res σ
  | [], s => { val := s }
  | (k, v) :: kvs, s =>
    let rk := decString k ""
    if rk.good then
      match fields rk.val with
      | none => decFields fields kvs s
      | some f =>
        let (s', e) := f v s
        let r := decFields fields kvs s'
        { val := r.val, err := e || r.err }
    else { val := (decFields fields kvs s).val, err := true }

/-- Into a struct. -/
def decStruct {σ : Type} (zero : σ) (fields : String → Option (Field σ)) : Dec σ
  | .null, _ => { val := zero }
  | .map kvs, old => decFields fields kvs old
  | _, old => mismatch old

/-- Into a type with an `UnmarshalYAML` method, which is not called for null; `f` is the method,
its Boolean whether it returns an error. -/
def custom {α : Type} (zero : α) (f : Node → α → α × Bool) : Dec α
  | .null, _ => { val := zero }
  | n, old =>
    let r := f n old
    { val := r.1, good := !r.2, err := r.2 }

/-- Keys of a `map[interface{}]interface{}` that are the same. -/
def sameKey : Value → Value → Bool
  | .null, .null => true
  | .bool a, .bool b => a == b
  | .int a, .int b => a == b
  | .float a, .float b => a == b
  | .str a, .str b => a == b
  | _, _ => false

/-- Map write. -/
def setKey (k v : Value) : List (Value × Value) → List (Value × Value)
  | [] => [(k, v)]
  | (k', v') :: kvs => if sameKey k' k then (k, v) :: kvs else (k', v') :: setKey k v kvs

/-- A list or map cannot be a key. -/
def hashable : Value → Bool
  | .seq _ => false
  | .map _ => false
  | _ => true

mutual
/-- Into an `interface{}`; `none` is the error for keys that are lists or maps. -/
def toValue : Node → Option Value
  | .null => some .null
  | .scalar t .str => some (.str t)
  | .scalar _ (.bool b) => some (.bool b)
  | .scalar _ (.int i) => some (.int i)
  | .scalar _ (.float q) => some (.float q)
  | .seq xs => (toValues xs).map .seq
  | .map kvs => (toEntries kvs []).map .map
/-- The elements of a list. -/
def toValues : List Node → Option (List Value)
  | [] => some []
  | x :: xs => (toValue x).bind fun v => (toValues xs).map fun vs => v :: vs
/-- The entries of a map. -/
def toEntries : List (Node × Node) → List (Value × Value) → Option (List (Value × Value))
  | [], m => some m
  | (k, v) :: kvs, m =>
    (toValue k).bind fun k => if hashable k then (toValue v).bind fun v => toEntries kvs (setKey k v m) else none
end

/-- Into an `interface{}`. -/
def decAny : Dec Value := fun n old =>
  match toValue n with
  | some v => { val := v }
  | none => mismatch old

end Yaml
end Drone
