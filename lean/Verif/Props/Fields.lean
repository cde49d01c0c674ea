import Verif.Lemmas.Fields
import Verif.Lemmas.ValEq
import Verif.Props.Field
/-
C87: `ak.fields`.
-/

namespace Awk.Props
open R Content

/-- **C87.** Every name that `fields(array)` lists is the name of a field of every outermost record of the array,
whatever lists, missing values and unions surround them. -/
theorem C87_listed (c : Content) (h : c.validity = ok ()) (hk : AllNodes KeyedNode c) (vs : List Val)
    (hv : c.toList = ok vs) (key : String) (hf : key ∈ c.fieldNames) : ∀ v ∈ vs, v.HasField key := by
  obtain ⟨hg, rfl⟩ := shows_seg h hv
  intro v hm
  obtain ⟨k, hk', rfl⟩ := mem_seg_valD hm
  exact fieldNames_hasField c hg hk hf _ (by omega)

/-- **C87.** Without unions, `fields(array)` lists the names of the fields of every outermost record, all of them and in
order; the list is empty if there are numbers instead of records. -/
theorem C87_names_partial (c : Content) (h : c.validity = ok ()) (hk : AllNodes KeyedNode c)
    (hu : AllNodes SureNode c) (vs : List Val) (hv : c.toList = ok vs) :
    ∀ v ∈ vs, v.NamesAre c.fieldNames := by
  obtain ⟨hg, rfl⟩ := shows_seg h hv
  intro v hm
  obtain ⟨k, hk', rfl⟩ := mem_seg_valD hm
  exact fieldNames_namesAre c hg hk hu _ (by omega)

/-- **C87.** A union of records lists a name exactly if each of its alternatives does. -/
theorem C87_union (p : Params) (tags index : List Int) (cs : List Content) (hne : cs ≠ []) (key : String) :
    key ∈ (union p tags index cs).fieldNames ↔ ∀ c ∈ cs, key ∈ c.fieldNames := by
  simp only [fieldNames, fieldNamesAll_eq, mem_unionKeys, ne_eq, List.map_eq_nil_iff, List.mem_map,
    forall_exists_index, and_imp, forall_apply_eq_imp_iff₂]
  exact ⟨fun h => h.2, fun h => ⟨hne, h⟩⟩

/-- **C87 (partial).** `array[name]` does not raise for any name that `fields(array)` lists, and shows the field of that
name of every outermost record. Missing: unions, and lists with the parameter of a string. -/
theorem C87_select_partial (same : Content → Content → Bool) (c : Content) (h : c.validity = ok ())
    (hk : AllNodes KeyedNode c) (hp : AllNodes BareNode c) (vs : List Val) (hv : c.toList = ok vs) (key : String)
    (hf : key ∈ c.fieldNames) :
    ∃ d, projectFields same [.one key] c = ok d ∧ d.toList = ok (vs.map (Val.project [.one key])) :=
  C31_project_partial same c h vs hv _ (fieldNames_hasFields c hk hp hf)

/-- **C87 (partial).** `array[name]` raises for every name that `fields(array)` does not list and that begins with a
letter. Missing: names that begin with a digit (`C87_number_violated`). -/
theorem C87_unlisted_partial (same : Content → Content → Bool) (c : Content) (hk : AllNodes KeyedNode c) (key : String)
    (ha : ∃ a l, key.toList = a :: l ∧ a.isAlpha = true) (hf : key ∉ c.fieldNames) :
    ∀ d, projectFields same [.one key] c ≠ ok d :=
  C52_partial same c key ha (fieldNames_lacks c hk hf) _ (Or.inl rfl) []

/-- `[[{x: 1, y: 2}], {x: 3}, None]`: lists of records next to records that can be missing. -/
def recordsOrLists : Content :=
  union {} [0, 1, 1] [0, 0, 1]
    [listOffset {} [0, 1] (record {} (some ["x", "y"]) [numpy {} .int64 [.int 1], numpy {} .int64 [.int 2]] 1),
     indexedOption {} [0, -1] (record {} (some ["z", "x"]) [numpy {} .int64 [.int 4], numpy {} .int64 [.int 3]] 1)]

example : recordsOrLists.fieldNames = ["x"] := by decide +kernel
example : recordsOrLists.validity = ok () := by rfl
example : recordsOrLists.toList = ok [.list [.record [("x", .atom (.int 1)), ("y", .atom (.int 2))]],
    .record [("z", .atom (.int 4)), ("x", .atom (.int 3))], .null] := R.lists (by decide +kernel)

private theorem keyed_numpy (p : Params) (dt : DType) (data : List Atom) : AllNodes KeyedNode (numpy p dt data) :=
  .mk trivial (by simp [children])

example : AllNodes KeyedNode recordsOrLists := by
  unfold recordsOrLists
  refine .mk (by simp [KeyedNode]) ?_
  simp only [children, List.mem_cons, List.not_mem_nil, or_false, forall_eq_or_imp, forall_eq]
  refine ⟨.mk trivial ?_, .mk trivial ?_⟩ <;> simp only [children, List.mem_singleton, forall_eq] <;>
    refine .mk (by simp [KeyedNode]) ?_ <;>
    simp only [children, List.mem_cons, List.not_mem_nil, or_false, forall_eq_or_imp, forall_eq] <;>
    exact ⟨keyed_numpy _ _ _, keyed_numpy _ _ _⟩

/-- `[[(1, 2)], None]`, tuples in lists that can be missing. -/
def tuplesInLists : Content :=
  indexedOption {} [0, -1] (listOffset {} [0, 1] (record {} none [numpy {} .int64 [.int 1], numpy {} .int64 [.int 2]] 1))

example : tuplesInLists.fieldNames = ["0", "1"] := by decide +kernel
example : tuplesInLists.validity = ok () := by rfl

example : AllNodes BareNode tuplesInLists ∧ AllNodes SureNode tuplesInLists ∧ AllNodes KeyedNode tuplesInLists := by
  unfold tuplesInLists
  refine ⟨?_, ?_, ?_⟩ <;> refine .mk trivial ?_ <;> simp only [children, List.mem_singleton, forall_eq] <;>
    refine .mk (by simp [BareNode, SureNode, KeyedNode]) ?_ <;> simp only [children, List.mem_singleton, forall_eq] <;>
    refine .mk (by simp [BareNode, SureNode, KeyedNode]) ?_ <;>
    simp only [children, List.mem_cons, List.not_mem_nil, or_false, forall_eq_or_imp, forall_eq] <;>
    exact ⟨.mk trivial (by simp [children]), .mk trivial (by simp [children])⟩

/-- **C87.** With unions there are fields that `fields(array)` does not list. -/
theorem C87_names_violated :
    recordsOrLists.validity = ok () ∧ recordsOrLists.fieldNames = ["x"] ∧
      recordsOrLists.toList = ok [.list [.record [("x", .atom (.int 1)), ("y", .atom (.int 2))]],
        .record [("z", .atom (.int 4)), ("x", .atom (.int 3))], .null] :=
  ⟨by rfl, by decide +kernel, R.lists (by decide +kernel)⟩

/-- **C87.** A name that begins with a digit selects the slot of that number although `fields(array)` does not list it. -/
theorem C87_number_violated :
    exampleTwo.validity = ok () ∧ "1st" ∉ exampleTwo.fieldNames ∧
      (projectFields (fun _ _ => false) [.one "1st"] exampleTwo >>= Content.toList) = ok [.atom (.int 2)] :=
  ⟨by rfl, by decide +kernel, by rfl⟩

end Awk.Props
