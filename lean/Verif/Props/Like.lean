import Verif.Lemmas.Like
import Verif.Lemmas.ValEq
import Verif.Props.List
/-
C79: `full_like`, `zeros_like` and `ones_like`. C80: `without_parameters`.
-/

namespace Awk.Props
open Awk R Content

/-- **C79 (partial).** `full_like(array, number)`: every number is replaced by the given number, converted to the
kind of number that it was, and every string by the text of the number; missing values, lists and records are as
in the array. Missing: numbers that a type in the array does not have, dates filled with numbers other than 0
and 1, strings as the fill value, and the argument `dtype`. -/
theorem C79_full_like_partial (c : Content) (h : c.validity = ok ()) (a : Atom) (text : List Atom) (re im : Rat)
    (ha : a.asNumber = some (re, im)) (hf : Fillable re im c) (vs : List Val) (hv : c.toList = ok vs) :
    ∃ d, c.fullLike (.value a text) = ok d ∧
      d.toList = ok (vs.map (Val.like re im (text.map Val.atom))) := by
  have hg := good_of_validity h
  obtain ⟨e, g1, g2⟩ := apply_maps (fullLike_applies (f := .value a text) ha hg hf 1) hg
  exact ⟨e, g1, toList_maps hg g2 hv⟩

/-- **C79.** `zeros_like(array)`: numbers become 0 and strings become empty. -/
theorem C79_zeros_like (c : Content) (h : c.validity = ok ()) (hf : Fillable 0 0 c) (vs : List Val)
    (hv : c.toList = ok vs) : ∃ d, c.zerosLike = ok d ∧ d.toList = ok (vs.map (Val.like 0 0 [])) := by
  have hg := good_of_validity h
  obtain ⟨e, g1, g2⟩ := apply_maps (fullLike_applies (f := .zeros) ⟨rfl, rfl⟩ hg hf 1) hg
  exact ⟨e, g1, toList_maps hg g2 hv⟩

/-- **C79.** `ones_like(array)`: numbers become 1 and strings become `"1"`. -/
theorem C79_ones_like (c : Content) (h : c.validity = ok ()) (hf : Fillable 1 0 c) (vs : List Val)
    (hv : c.toList = ok vs) :
    ∃ d, c.onesLike = ok d ∧ d.toList = ok (vs.map (Val.like 1 0 [.atom (.int 49)])) :=
  C79_full_like_partial c h (.int 1) [.int 49] 1 0 rfl hf vs hv

/-- **C79 (partial).** The result has the type of the array. Missing: strings of a fixed size and strings with
further parameters (`C79_type_violated`). -/
theorem C79_type_partial (c d : Content) (f : FillValue) (h : c.fullLike f = ok d) (hp : AllNodes PlainText c)
    (typestrs : List (String × String)) : d.type typestrs = c.type typestrs :=
  fullLike_type hp h

/-- The example of the documentation, without its lists: `{x: 0.5, y: None}`, `True`, `{x: 1.5, y: 7}`, `"ab"`. -/
def likeExample : Content :=
  union {} [0, 1, 0, 2] [0, 0, 1, 0]
    [record {} (some ["x", "y"]) [numpy {} .float64 [.real (1/2), .real (3/2)],
      indexedOption {} [-1, 0] (numpy {} .int64 [.int 7])] 2,
     numpy {} .bool [.bool true],
     listOffset { arr := .string } [0, 2] (numpy { arr := .char } .uint8 [.int 97, .int 98])]

theorem likeExample_fillable : Fillable (123/10) 0 likeExample := by
  have h64 : DType.int64.has (123/10) 0 := by
    intro s b hs
    simp only [DType.signedBits, Option.some.injEq, Prod.mk.injEq] at hs
    obtain ⟨rfl, rfl⟩ := hs
    decide +kernel
  refine .node (by simp [likeExample, Content.params]) (by simp [likeExample, Content.params])
    (fun _ _ _ h => by simp [likeExample] at h) (fun d hd => ?_)
  simp only [likeExample, children, List.mem_cons, List.not_mem_nil, or_false] at hd
  rcases hd with rfl | rfl | rfl
  · refine .node (by simp [Content.params]) (by simp [Content.params]) (fun _ _ _ h => by simp at h) (fun d hd => ?_)
    simp only [children, List.mem_cons, List.not_mem_nil, or_false] at hd
    rcases hd with rfl | rfl
    · exact .numpy (by simp) (by simp) (by simp [Atom.isOf]) (by simp [DType.has, DType.signedBits])
    · refine .node (by simp [Content.params]) (by simp [Content.params]) (fun _ _ _ h => by simp at h) (fun d hd => ?_)
      simp only [children, List.mem_singleton] at hd
      subst hd
      exact .numpy (by simp) (by simp) (by simp [Atom.isOf, DType.signedBits]) h64
  · exact .numpy (by simp) (by simp) (by simp [Atom.isOf]) (by simp [DType.has, DType.signedBits])
  · exact .text ⟨rfl, .inl rfl⟩

/-- `full_like(array, 12.3)` is `[{x: 12.3, y: None}, True, {x: 12.3, y: 12}, "12.3"]`. -/
example : ∃ d, likeExample.fullLike (.value (.real (123/10)) [.int 49, .int 50, .int 46, .int 51]) = ok d ∧
    d.toList = ok [.record [("x", .atom (.real (123/10))), ("y", .null)], .atom (.bool true),
      .record [("x", .atom (.real (123/10))), ("y", .atom (.int 12))],
      .str [.atom (.int 49), .atom (.int 50), .atom (.int 46), .atom (.int 51)]] := by
  obtain ⟨d, h1, h2⟩ := C79_full_like_partial likeExample (by rfl) (.real (123/10))
    [.int 49, .int 50, .int 46, .int 51] (123/10) 0 rfl likeExample_fillable
    [.record [("x", .atom (.real (1/2))), ("y", .null)], .atom (.bool true),
      .record [("x", .atom (.real (3/2))), ("y", .atom (.int 7))], .str [.atom (.int 97), .atom (.int 98)]]
    (R.lists (by decide +kernel))
  exact ⟨d, h1, h2.trans (R.lists (by decide +kernel))⟩

example : AllNodes PlainText likeExample := by
  simp [likeExample, all_union, all_record, all_numpy, all_indexedOption, all_listOffset, children, PlainText,
    Content.params, isListNode]

/-- C79 is false of the type of strings with a fixed size: they become lists of any size. -/
theorem C79_type_violated : ∃ c d : Content, c.validity = ok () ∧ c.zerosLike = ok d ∧
    c.toList = ok [.str [.atom (.int 97), .atom (.int 98)]] ∧ d.type [] ≠ c.type [] :=
  ⟨regular { arr := .string } (numpy { arr := .char } .uint8 [.int 97, .int 98]) 2 1, _, rfl, rfl, rfl, by
    simp [sameStrings, Content.type, form, Form.type]⟩

/-- C79 is false of categories: they are filled as well and become equal, so the result is not a categorical
array any more although it is labelled as one. -/
theorem C79_categorical_violated : ∃ categories zeros : Content,
    categories.toList = ok [.atom (.int 5), .atom (.int 6)] ∧
    (indexed { arr := .categorical } [0, 1, 0] categories).zerosLike
      = ok (indexed { arr := .categorical } [0, 1, 0] zeros) ∧
    zeros.toList = ok [.atom (.int 0), .atom (.int 0)] :=
  ⟨numpy {} .int64 [.int 5, .int 6], _, rfl, rfl, rfl⟩

/-- **C80.** `without_parameters(array)` has no parameters at any node, and the same elements, of which strings
and bytestrings are seen as lists of numbers. -/
theorem C80_without_parameters (c : Content) (h : c.validity = ok ()) (vs : List Val) (hv : c.toList = ok vs) :
    AllNodes (fun d => d.params = {}) c.withoutParameters ∧
      c.withoutParameters.toList = ok (vs.map Val.unnamed) :=
  ⟨withoutParameters_params c, toList_maps (good_of_validity h) (withoutParameters_maps (good_of_validity h)) hv⟩

/-- **C80.** Nothing changes when it is done again. -/
theorem C80_twice (c : Content) : c.withoutParameters.withoutParameters = c.withoutParameters :=
  withoutParameters_twice c

example : likeExample.validity = ok () ∧ likeExample.withoutParameters.toList
    = ok [.record [("x", .atom (.real (1/2))), ("y", .null)], .atom (.bool true),
      .record [("x", .atom (.real (3/2))), ("y", .atom (.int 7))], .list [.atom (.int 97), .atom (.int 98)]] :=
  ⟨rfl, R.lists (by decide +kernel)⟩

end Awk.Props
