import Verif.Model.TypeText
/-
The types whose text `from_datashape` reads as the same type.

`json` is what Python makes of the text of a JSON value: a parameter survives if its text is already
in the form that is written back. `high` is the argument `high_level`.
-/

namespace Awk
namespace Spec
open R

/-- Text that JSON writes without backslashes. -/
def Unescaped (s : String) : Prop := ∀ c ∈ s.toList, c ≠ '"' ∧ c ≠ '\\' ∧ 32 ≤ c.toNat

/-- The words of the type language. -/
def reservedWords : List String :=
  ["int8", "int16", "int32", "int64", "uint8", "uint16", "uint32", "uint64", "float32", "float64",
    "bool", "string", "char", "bytes", "byte", "unknown", "option", "union", "var", "tuple",
    "struct", "categorical", "int128", "uint128", "parameters"]

/-- Record names that can be read: letters only, and not beginning with a word of the language. -/
def RecordName (s : String) : Prop :=
  s ≠ "" ∧ (∀ c ∈ s.toList, ('a' ≤ c ∧ c ≤ 'z') ∨ ('A' ≤ c ∧ c ≤ 'Z')) ∧
  ∀ w ∈ reservedWords, ¬ w.toList <+: s.toList

/-- The primitive types of the type language. -/
def ReadablePrimitive (dt : DType) : Prop :=
  dt ∈ [DType.bool, .int8, .int16, .int32, .int64, .uint8, .uint16, .uint32, .uint64, .float32,
    .float64]

/-- Parameters that can be read. Only high-level types can be categorical. -/
structure ReadableParams (json : String → R String) (high : Bool) (p : Params) : Prop where
  record : ∀ n, p.recName = some n → Unescaped n
  distinct : (p.other.map Prod.fst).Nodup
  other : ∀ kv ∈ p.other, kv.1 ≠ "__categorical__" →
    Unescaped kv.1 ∧ kv.1 ≠ "__array__" ∧ kv.1 ≠ "__record__" ∧ json kv.2 = ok kv.2
  categorical : ∀ v, ("__categorical__", v) ∈ p.other →
    v = "true" ∧ high = true ∧ p.other.getLast? = some ("__categorical__", v)

/-- Nothing but, possibly, the mark of a categorical type. -/
def Bare (p : Params) : Prop :=
  p.arr = .none ∧ p.recName = none ∧ ∀ kv ∈ p.other, kv = ("__categorical__", "true")

/-- Types that can be read from their text. -/
inductive Readable (json : String → R String) (high : Bool) : AkType → Prop
  | unknown {p} : ReadableParams json high p → Readable json high (.unknown { params := p })
  | prim {p dt} : ReadableParams json high p → ReadablePrimitive dt →
      Readable json high (.prim { params := p } dt)
  | char {p} : ReadableParams json high p → Bare { p with arr := .none } → p.arr = .char →
      Readable json high (.prim { params := p, typestr := "char" } .uint8)
  | byte {p} : ReadableParams json high p → Bare { p with arr := .none } → p.arr = .byte →
      Readable json high (.prim { params := p, typestr := "byte" } .uint8)
  | string {p} : ReadableParams json high p → Bare { p with arr := .none } → p.arr = .string →
      Readable json high (.list { params := p, typestr := "string" }
        (.prim { params := { arr := .char }, typestr := "char" } .uint8))
  | bytes {p} : ReadableParams json high p → Bare { p with arr := .none } → p.arr = .bytestring →
      Readable json high (.list { params := p, typestr := "bytes" }
        (.prim { params := { arr := .byte }, typestr := "byte" } .uint8))
  | list {p t} : ReadableParams json high p → Readable json high t →
      Readable json high (.list { params := p } t)
  | regular {p t n} : ReadableParams json high p → Readable json high t →
      (Bare p → high = false) → Readable json high (.regular { params := p } t n)
  | option {p t} : ReadableParams json high p → Readable json high t →
      (Bare p → (∃ m u, t = .list m u) ∨ (∃ m u n, t = .regular m u n) → high = true) →
      Readable json high (.option { params := p } t)
  | named {n ks ts} : RecordName n → n ∉ datashapeKeywords → high = true → ts ≠ [] →
      ks.length = ts.length → (∀ k ∈ ks, Unescaped k) → (∀ t ∈ ts, Readable json high t) →
      Readable json high (.record { params := { recName := some n } } (some ks) ts)
  | tuple {p ts} : ReadableParams json high p → (∀ n, ¬ (p = { recName := some n } ∧
      isName n = true ∧ n ∉ datashapeKeywords)) → ts ≠ [] →
      (∀ t ∈ ts, Readable json high t) → Readable json high (.record { params := p } none ts)
  | record {p ks ts} : ReadableParams json high p → (∀ n, ¬ (p = { recName := some n } ∧
      isName n = true ∧ n ∉ datashapeKeywords)) → ts ≠ [] → ks.length = ts.length →
      (∀ k ∈ ks, Unescaped k) → (∀ t ∈ ts, Readable json high t) →
      Readable json high (.record { params := p } (some ks) ts)
  | union {p ts} : ReadableParams json high p → ts ≠ [] → (∀ t ∈ ts, Readable json high t) →
      Readable json high (.union { params := p } ts)
  | array {t n} : high = true → Readable json high t → Readable json high (.array {} t n)

end Spec
end Awk
