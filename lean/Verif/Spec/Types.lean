import Verif.Model.Types
/-
What it means that a type describes a value, and which types the elements of an array have.
-/

namespace Awk.Spec
open Awk

/-- The values that an item of a NumPy array of this dtype can have. -/
def Primitive : DType → Atom → Prop
  | .bool, .bool _ => True
  | .int8, .int i => -2 ^ 7 ≤ i ∧ i < 2 ^ 7
  | .int16, .int i => -2 ^ 15 ≤ i ∧ i < 2 ^ 15
  | .int32, .int i => -2 ^ 31 ≤ i ∧ i < 2 ^ 31
  | .int64, .int i => -2 ^ 63 ≤ i ∧ i < 2 ^ 63
  | .uint8, .int i => 0 ≤ i ∧ i < 2 ^ 8
  | .uint16, .int i => 0 ≤ i ∧ i < 2 ^ 16
  | .uint32, .int i => 0 ≤ i ∧ i < 2 ^ 32
  | .uint64, .int i => 0 ≤ i ∧ i < 2 ^ 64
  | .float32, .real _ | .float64, .real _ => True
  | .complex64, .complex _ _ | .complex128, .complex _ _ => True
  | .datetime64, .datetime _ => True
  | .timedelta64, .timedelta _ => True
  | _, _ => False

/-- A list, or the text or the bytes with these codes. -/
def shownAs (k : ArrKind) (vs : List Val) : Val :=
  match k with
  | .string => .str vs
  | .bytestring => .bytes vs
  | _ => .list vs

/-- The value is one of those that the type stands for: `unknown` has no values, `?t` has the
values of `t` and None, `n * t` lists of exactly `n` values of `t`, a union the values of its
members, an array type of length `n` the arrays of `n` values. -/
inductive Describes : AkType → Val → Prop
  | prim {m dt a} : Primitive dt a → Describes (.prim m dt) (.atom a)
  | list {m t} {vs : List Val} : (∀ v ∈ vs, Describes t v) →
      Describes (.list m t) (shownAs m.params.arr vs)
  | regular {m t} {vs : List Val} : (∀ v ∈ vs, Describes t v) →
      Describes (.regular m t vs.length) (shownAs m.params.arr vs)
  | missing {m t} : Describes (.option m t) .null
  | present {m t v} : Describes t v → Describes (.option m t) v
  | record {m} {ks : List String} {ts : List AkType} {vs : List Val} : ks.length = ts.length →
      (hl : ts.length = vs.length) → (∀ i (h : i < ts.length), Describes ts[i] vs[i]) →
      Describes (.record m (some ks) ts) (.record (ks.zip vs))
  | tuple {m} {ts : List AkType} {vs : List Val} : (hl : ts.length = vs.length) →
      (∀ i (h : i < ts.length), Describes ts[i] vs[i]) →
      Describes (.record m none ts) (.tuple vs)
  | union {m ts t v} : t ∈ ts → Describes t v → Describes (.union m ts) v
  | array {m t} {vs : List Val} : (∀ v ∈ vs, Describes t v) →
      Describes (.array m t vs.length) (.list vs)

/-- What one element can be that is not None, by its type. -/
inductive Element : AkType → AkType → Prop
  | self {t} : Element t t
  | option {m t u} : Element t u → Element (.option m t) u
  | union {m ts t u} : t ∈ ts → Element t u → Element (.union m ts) u

end Awk.Spec

namespace Awk.Content
open Awk Awk.Spec

mutual
/-- What the constructors of the arrays ask for: the items in the buffers belong to the dtypes, and
records have as many field names as fields. -/
def Built : Content → Prop
  | empty _ => True
  | numpy _ dt data => ∀ a ∈ data, Primitive dt a
  | regular _ c _ _ => c.Built
  | listArray _ _ _ c => c.Built
  | listOffset _ _ c => c.Built
  | indexed _ _ c => c.Built
  | indexedOption _ _ c => c.Built
  | byteMasked _ _ _ c => c.Built
  | bitMasked _ _ _ _ _ c => c.Built
  | unmasked _ c => c.Built
  | record _ keys cs _ => (∀ ks, keys = some ks → ks.length = cs.length) ∧ BuiltAll cs
  | union _ _ _ cs => BuiltAll cs
/-- `Built` of every member. -/
def BuiltAll : List Content → Prop
  | [] => True
  | c :: cs => c.Built ∧ BuiltAll cs
end

end Awk.Content

namespace Awk.Spec
open Awk

/-- The type of what `array[i]` returns, by the type of the array's items: a number belongs to a
primitive type, a sub-array has the type of the items of the lists, and as many items as a fixed
size says, and a record has the type of the records, apart from parameters. None can only come from
an option. -/
inductive ItemOf (typestrs : List (String × String)) (t : AkType) : Item → Prop
  | none {m u} : Element t (.option m u) → ItemOf typestrs t .none
  | scalar {m dt a} : Element t (.prim m dt) → Primitive dt a → ItemOf typestrs t (.scalar a)
  | list {m d} : Element t (.list m (Content.type typestrs d)) → ItemOf typestrs t (.array d)
  | regular {m d} : Element t (.regular m (Content.type typestrs d) d.len) →
      ItemOf typestrs t (.array d)
  | record {m m' keys ts a i} : Content.type typestrs a = .record m keys ts →
      Element t (.record m' keys ts) → ItemOf typestrs t (.record a i)

end Awk.Spec
