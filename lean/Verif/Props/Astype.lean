import Verif.Lemmas.Astype
import Verif.Props.List
import Verif.Lemmas.AllNodes
/-
C44 and C53: `ak.values_astype`.
-/

namespace Awk
namespace Props
open R Content

/-- **C53**, for numbers that are `Convertible`: `ak.values_astype` of a valid array returns a valid
array with the same structure, in which every number outside of strings is converted. -/
theorem C53_astype_partial (ty : DType) (ht : ty ≠ .timedelta64) (c : Content) (vs : List Val)
    (hv : c.validity = ok ()) (hc : AllNodes (ConvertibleNode ty) c) (hl : c.toList = ok vs) :
    ∃ (c' : Content) (f : Atom → Atom), c.numbersToType ty = ok c' ∧ c'.validity = ok () ∧
      (∀ a, Convertible ty a → Converted ty a (f a)) ∧
      c'.toList = ok (vs.map (Val.mapNumbers f)) := by
  obtain ⟨hg, hy⟩ := validity_iff.mp hv
  obtain ⟨c', h1, h2⟩ := numbersToType_cast ht (f := castD ty) (fun a h => castAtom_castD h) hg hy hc
  refine ⟨c', castD ty, h1, validity_iff.mpr ⟨h2.good, h2.layout⟩, fun a h => converted_castD h, ?_⟩
  exact toList_maps hg h2.toMapsG hl

/-- **C44**, for numbers that are not negative and not imaginary only: `ak.values_astype` to
booleans makes exactly the zero values false. -/
theorem C44_truth_partial (c : Content) (vs : List Val) (f : Atom → Atom)
    (hf : ∀ a re im, a.HasParts re im → ∃ t : Bool, f a = .bool t ∧ (t = false ↔ re = 0 ∧ im = 0))
    (hv : c.validity = ok ()) (hc : AllNodes (ConvertibleNode .bool) c) (hl : c.toList = ok vs) :
    ∃ c', c.numbersToType .bool = ok c' ∧ c'.toList = ok (vs.map (Val.mapNumbers f)) := by
  obtain ⟨hg, hy⟩ := validity_iff.mp hv
  obtain ⟨c', h1, h2⟩ := numbersToType_cast (ty := .bool) (by decide) (f := f) (fun a h => by
    obtain ⟨b, h1, re, im, h2, t, rfl, h3⟩ := castAtom_ok h
    obtain ⟨t', h4, h5⟩ := hf a re im h2
    rw [h1, h4]
    have : t = t' := by
      have := h3.trans h5.symm
      cases t <;> cases t' <;> simp_all
    rw [this]) hg hy hc
  exact ⟨c', h1, toList_maps hg h2.toMapsG hl⟩

/-! ### The hypotheses are satisfiable, and what goes wrong without them -/

section Examples

private def reals (l : List Rat) : Content := .numpy {} .float64 (l.map .real)

/-- Records of optional lists of numbers and of strings. -/
private def exampleRecords : Content :=
  .record {} (some ["x", "s"])
    [.bitMasked {} [1] true 2 true (.listOffset {} [0, 2, 2] (reals [7 / 2, -5 / 2])),
     .listArray { arr := .string } [0, 0] [1, 0] (.numpy { arr := .char } .uint8 [.int 104])] 2

example : exampleRecords.validity = ok () ∧ AllNodes (ConvertibleNode .int8) exampleRecords ∧
    exampleRecords.toList = ok [
      .record [("x", .list [.atom (.real (7 / 2)), .atom (.real (-5 / 2))]), ("s", .str [.atom (.int 104)])],
      .record [("x", .null), ("s", .str [])]] := by
  refine ⟨rfl, ?_, rfl⟩
  have h : ∀ q : Rat, -129 < q → q < 128 → Convertible .int8 (.real q) := by
    intro q h1 h2
    refine ⟨q, 0, .real q, ?_⟩
    rintro lo n h _
    simp only [DType.intType, Option.some.injEq, Prod.mk.injEq] at h
    obtain ⟨rfl, rfl⟩ := h
    norm_num
    exact ⟨h1, h2⟩
  have h' : Convertible .int8 (.int 104) := ⟨_, _, .int 104, fun lo n _ h => absurd rfl (h 104)⟩
  simp [exampleRecords, reals, all_record, all_bitMasked, all_listOffset, all_listArray, all_numpy,
    ConvertibleNode, h']
  exact ⟨h _ (by norm_num) (by norm_num), h _ (by norm_num) (by norm_num)⟩

example : castAtom .int8 (.real (7 / 2)) = ok (.int 3) ∧
    castAtom .int8 (.real (-5 / 2)) = ok (.int (-2)) := by decide +kernel

/-- Integers are reduced modulo two to the number of bits. -/
example : (numpy {} .int64 [.int 200, .int (-1), .int (2 ^ 40)]).numbersToType .uint8
    = ok (.numpy {} .uint8 [.int 200, .int 255, .int 0]) := rfl

example : let c : Content := .numpy {} .int64 [.int 0, .int 3]
    c.validity = ok () ∧ AllNodes (ConvertibleNode .bool) c ∧
      c.toList = ok [.atom (.int 0), .atom (.int 3)] ∧
      c.numbersToType .bool = ok (.numpy {} .bool [.bool false, .bool true]) := by
  refine ⟨rfl, ?_, rfl, rfl⟩
  simp only [all_numpy, ConvertibleNode]
  refine ⟨by simp, by simp, ?_⟩
  simp only [List.mem_cons, List.not_mem_nil, or_false]
  rintro a (rfl | rfl)
  · exact ⟨_, _, .int 0, .inr ⟨by simp, by norm_num⟩⟩
  · exact ⟨_, _, .int 3, .inr ⟨by simp, by norm_num⟩⟩

/-- C44 fails for negative numbers, which become `False`. -/
theorem C44_negative_violated :
    ∃ c c' : Content, c.validity = ok () ∧ c.toList = ok [.atom (.int (-1))] ∧
      c.numbersToType .bool = ok c' ∧ c'.toList = ok [.atom (.bool false)] :=
  ⟨.numpy {} .int64 [.int (-1)], _, rfl, rfl, rfl, rfl⟩

/-- C44 fails for imaginary numbers, which become `False`. -/
theorem C44_imaginary_violated :
    ∃ c c' : Content, c.validity = ok () ∧ c.toList = ok [.atom (.complex 0 1)] ∧
      c.numbersToType .bool = ok c' ∧ c'.toList = ok [.atom (.bool false)] :=
  ⟨.numpy {} .complex128 [.complex 0 1], _, rfl, rfl, rfl, rfl⟩

end Examples

end Props
end Awk
