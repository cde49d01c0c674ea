import Verif.Lemmas.WithParameter
import Verif.Lemmas.ValEq
/-
C90: `ak.with_parameter`.
-/

namespace Awk.Props
open R Content

/-- **C90.** The result of `with_parameter(array, key, value)` has that value for the key (none, if it is `None`), all
other parameters of the array, the same arrays inside, and the same everything else. -/
theorem C90_parameters (c d : Content) (key : String) (value : ParamValue)
    (h : (Layout.array c).withParameter key value = ok (some (Layout.array d))) :
    (Layout.array d).parameter key = value.dumps ∧
      (∀ other, other ≠ key → (Layout.array d).parameter other = (Layout.array c).parameter other) ∧
      d.children = c.children ∧ d.len = c.len ∧ d.withoutParameters = c.withoutParameters := by
  simp only [Layout.withParameter, ok.injEq, Option.map_eq_some_iff, Layout.array.injEq, exists_eq_right,
    Content.withParameter] at h
  obtain ⟨q, hq, rfl⟩ := h
  simp only [Layout.parameter, setParameters_params]
  exact ⟨Params.setParameter_self hq, fun o ho => Params.setParameter_other hq ho, setParameters_children q c,
    setParameters_len q c, setParameters_without q c⟩

/-- **C90, values.** Setting or removing a parameter other than `__array__` and `__record__` does not raise, and the result
is as valid as the array and shows the same elements. -/
theorem C90_values (c : Content) (key : String) (value : ParamValue) (ha : key ≠ "__array__") (hr : key ≠ "__record__") :
    ∃ d, (Layout.array c).withParameter key value = ok (some (Layout.array d)) ∧ d.validity = c.validity ∧
      d.toList = c.toList := by
  obtain ⟨q, hq⟩ := Params.setParameter_some c.params value ha hr
  have h := Params.setParameter_arr hq ha
  exact ⟨c.setParameters q, by simp [Layout.withParameter, Content.withParameter, hq], setParameters_validity h,
    setParameters_toList h⟩

/-- **C90, names.** So does giving an array a record name, and removing it. -/
theorem C90_record_name (c : Content) (name : Option String) :
    ∃ d, (Layout.array c).withParameter "__record__" (name.elim .null .str) = ok (some (Layout.array d)) ∧
      d.validity = c.validity ∧ d.toList = c.toList := by
  obtain ⟨q, hq⟩ : ∃ q, c.params.setParameter "__record__" (name.elim .null .str) = some q := by
    cases name <;> exact ⟨_, rfl⟩
  have h := Params.setParameter_arr hq (by decide)
  exact ⟨c.setParameters q, by simp [Layout.withParameter, Content.withParameter, hq], setParameters_validity h,
    setParameters_toList h⟩

/-- **C90, removal.** Setting a parameter to `None` after setting it is the same as setting it to `None`. -/
theorem C90_remove (c d : Content) (key : String) (value : ParamValue)
    (h : (Layout.array c).withParameter key value = ok (some (Layout.array d))) (other : String) :
    ∃ e, (Layout.array d).withParameter key .null = ok (some (Layout.array e)) ∧
      (Layout.array e).parameter other = if other = key then "null" else (Layout.array c).parameter other := by
  obtain ⟨q, hq⟩ : ∃ q, d.params.setParameter key .null = some q := by
    unfold Params.setParameter
    split
    · exact ⟨_, rfl⟩
    · split
      · exact ⟨_, rfl⟩
      · exact ⟨_, rfl⟩
  have he : (Layout.array d).withParameter key .null = ok (some (Layout.array (d.setParameters q))) := by
    simp [Layout.withParameter, Content.withParameter, hq]
  have h1 := C90_parameters c d key value h
  have h2 := C90_parameters d _ key .null he
  refine ⟨_, he, ?_⟩
  split
  · rename_i hk
    rw [hk]
    exact h2.1
  · rename_i hk
    rw [h2.2.1 other hk, h1.2.1 other hk]

/-- **C90 is false for single records**, for which `with_parameter` always raises: the class has no such method. -/
theorem C90_record_violated (c : Content) (i : Nat) (key : String) (value : ParamValue) :
    ((Layout.record c i).withParameter key value).IsErr := by
  simp [Layout.withParameter, IsErr]

/-- `[[1], [2, 3]]` with two parameters. -/
def withUnits : Content :=
  listOffset { recName := some "r", other := [("units", "\"cm\""), ("offset", "3")] } [0, 1, 3] (numpy {} .int64 [.int 1, .int 2, .int 3])

example : (withUnits.withParameter "units" (.str "m")).map (fun d =>
      (d.params.parameter "units", d.params.parameter "offset", d.params.parameter "__record__")) =
    some ("\"m\"", "3", "\"r\"") := by decide +kernel

example : (withUnits.withParameter "units" .null).map (fun d =>
      (d.params.parameter "units", d.params.parameter "offset", d.params.parameter "__record__")) =
    some ("null", "3", "\"r\"") := by decide +kernel

example : (withUnits.withParameter "__array__" (.str "string")).map (fun d =>
      (d.params.parameter "__array__", d.params.parameter "offset")) = some ("\"string\"", "3") := by decide +kernel

end Awk.Props
