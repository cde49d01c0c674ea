import Verif.Lemmas.Types
import Verif.Lemmas.ValEq
/-
C58: types.
-/

namespace Awk
namespace Props
open R Spec

/-- C58, values: the type of a valid array describes what the array shows: the length, the size of
every list of fixed size, the numbers, where None can be, the fields of the records. -/
theorem C58_describes (typestrs : List (String × String)) {c : Content} (h : c.validity = ok ())
    (hb : c.Built) {vs : List Val} (hv : c.toList = ok vs) :
    Describes (c.highlevelType typestrs) (.list vs) := by
  have hl := mapN_length hv
  unfold Content.highlevelType
  rw [← hl]
  refine .array fun v hm => ?_
  obtain ⟨k, _, hk⟩ := Content.mapN_mem hv hm
  exact Content.val_described typestrs (Content.quiet_of_validity h) hb hk

/-- C58, rows: `array[start:stop:step]` and `array[positions]` have the type of the array, apart
from the length. -/
theorem C58_rows (typestrs : List (String × String)) {c : Content} {it : Item} {item : SliceItem}
    (hi : (∃ start stop step, item = .range start stop step) ∨ ∃ n flat, item = .array [n] flat)
    (h : c.getitem [item] = ok it) : ∃ d, it = .array d ∧ d.type typestrs = c.type typestrs :=
  Content.getitem_row_type typestrs hi h

/-- C58, masks: `array[mask]` has the type of the array, apart from the length. -/
theorem C58_mask (typestrs : List (String × String)) {c : Content} {it : Item} {mask : List Int}
    {length stride : Int}
    (h : (maskSlice mask length stride >>= fun item => c.getitem [item]) = ok it) :
    ∃ d, it = .array d ∧ d.type typestrs = c.type typestrs := by
  simp only [bind_eq_ok] at h
  obtain ⟨item, h1, h2⟩ := h
  simp only [maskSlice, bind_eq_ok, ok.injEq] at h1
  obtain ⟨_, _, _, _, rfl⟩ := h1
  exact Content.getitem_row_type typestrs (.inr ⟨_, _, rfl⟩) h2

/-- C58, elements: the type of `array[i]` is found in the type of the array: numbers are of the
primitive type, sub-arrays have the type of the items of the lists, records that of the records, and
None comes from an option.

Missing from the full property: the parameters of the records (`C58_name_violated`). -/
theorem C58_element_partial (typestrs : List (String × String)) {c : Content}
    (h : c.validity = ok ()) (hb : c.Built) {i : Int} {it : Item} (hi : c.getitemAt i = ok it) :
    ItemOf typestrs (c.type typestrs) it := by
  unfold Content.getitemAt at hi
  dsimp only at hi
  generalize (if i < 0 then i + (c.len : Int) else i) = k at hi
  split at hi
  · cases hi
  · exact Content.getitemAtNowrap_type typestrs (Content.good_of_validity h) hb (by omega) hi

/-- Text, pairs of numbers and records, with missing values and categories. -/
def typeExample : Content :=
  .union {} [0, 1, 0, 2, 1] [0, 1, 1, 2, 0]
    [.listOffset { arr := .string } [0, 2, 3]
        (.numpy { arr := .char } .uint8 [.int 104, .int 105, .int 33]),
      .indexedOption {} [-1, 0]
        (.regular {} (.numpy {} .int64 [.int 1, .int (-2), .int 3]) 2 0),
      .record { recName := some "point" } (some ["x", "y"])
        [.bitMasked {} [5] true 3 true (.numpy {} .float64 [.real 1, .real 2, .real 3]),
          .indexed { arr := .categorical } [0, 0, 1]
            (.numpy {} .bool [.bool false, .bool true])] 3]

/-- The texts for types that the library starts with (src/awkward/behaviors/string.py:95-119). -/
def defaultTypestrs : List (String × String) :=
  [("byte", "byte"), ("bytestring", "bytes"), ("char", "char"), ("string", "string")]

example : typeExample.validity = ok () := by rfl
example : typeExample.Built := by
  simp [typeExample, Content.Built, Content.BuiltAll, Primitive]
example : typeExample.highlevelType defaultTypestrs =
    .array {} (.union {} [
      .list { params := { arr := .string }, typestr := "string" }
        (.prim { params := { arr := .char }, typestr := "char" } .uint8),
      .option {} (.regular {} (.prim {} .int64) 2),
      .record { params := { recName := some "point" } } (some ["x", "y"])
        [.option {} (.prim {} .float64),
          .prim { params := { other := [("__categorical__", "true")] } } .bool]]) 5 := by rfl
example : typeExample.toList = ok [.str [.atom (.int 104), .atom (.int 105)],
    .list [.atom (.int 1), .atom (.int (-2))], .str [.atom (.int 33)],
    .record [("x", .atom (.real 3)), ("y", .atom (.bool true))], .null] :=
  R.lists (by decide +kernel)
example : ∃ d, typeExample.getitem [.range none none (-2)] = ok (.array d) ∧ d.len = 3 :=
  ⟨_, rfl, rfl⟩
example : ∃ d, typeExample.getitem [.array [2] [-1, 1]] = ok (.array d) ∧ d.len = 2 :=
  ⟨_, rfl, rfl⟩
example : ∃ d, typeExample.getitemAt 1 = ok (.array d) ∧ d.len = 2 := ⟨_, rfl, rfl⟩
example : ∃ d, typeExample.getitemAt (-2) = ok (.record d 2) := ⟨_, rfl⟩

/-- A type does not describe everything. -/
example : ¬ Describes (.regular {} (.prim {} .int64) 2) (.list [.atom (.int 1)]) := by
  intro h
  generalize hv : Val.list [.atom (.int 1)] = v at h
  generalize ht : AkType.regular {} (.prim {} .int64) 2 = t at h
  cases h with
  | @regular m t vs h =>
    rw [AkType.regular.injEq] at ht
    obtain ⟨rfl, _, hl⟩ := ht
    have : [Val.atom (.int 1)] = vs := Val.list.inj hv
    subst this
    cases hl
  | _ => cases ht
example : ¬ Describes (.prim {} .bool) .null := by rintro ⟨⟩
example : ¬ Describes (.option {} (.prim {} .int8)) (.atom (.int 128)) := by
  intro h
  cases h with
  | present h => cases h with | prim h => simp [Primitive] at h

/-- Records that are named by an IndexedArray around them. -/
def namedOutside : Content :=
  .indexed { recName := some "point" } [1, 0]
    (.record {} (some ["x"]) [.numpy {} .int64 [.int 1, .int 2]] 2)

/-- C58 fails for parameters of an IndexedArray: the records of the array have the type
`point["x": int64]`, but `ak.type(array[0])` is `{"x": int64}`. -/
theorem C58_name_violated :
    ∃ (c : Content) (a : Content) (i : Nat), c.validity = ok () ∧ c.Built ∧
      c.getitemAt 0 = ok (.record a i) ∧
      c.type defaultTypestrs =
        .record { params := { recName := some "point" } } (some ["x"]) [.prim {} .int64] ∧
      a.type defaultTypestrs = .record {} (some ["x"]) [.prim {} .int64] := by
  refine ⟨namedOutside, _, _, rfl, ?_, rfl, rfl, rfl⟩
  simp [namedOutside, Content.Built, Content.BuiltAll, Primitive]

end Props
end Awk
