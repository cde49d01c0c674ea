import Verif.Lemmas.Option
import Verif.Props.Content
/-
Property theorems C15 and C16: the four encodings of missing data, and the simplification of
nested option-type or indexed nodes.
-/

namespace Awk.Props
open Awk R Spec

/-- **C15.** Converting any encoding of missing data to the indexed encoding keeps
`to_list(array)` and gives a valid array. -/
theorem C15_to_indexed_option (c : Content) (h : c.validity = ok ()) (ho : c.isOption = true)
    (vs : List Val) (hv : c.toList = ok vs) :
    ∃ p index d, c.toIndexedOption = ok (.indexedOption p index d) ∧
      (Content.indexedOption p index d).toList = ok vs ∧
      (Content.indexedOption p index d).validity = ok () := by
  obtain ⟨hwf, hr⟩ := Content.valid_readable h
  obtain ⟨b, idx, g1, g2, g3, g4⟩ := Content.innerIndex_ok hwf (Content.isOption_imp ho)
  have hval := Content.toIndexedOption_valid h ho g1
  obtain ⟨e1, e2⟩ := hval
  exact ⟨c.params, idx, c.inner, e1,
    Content.repick_toList hwf (Content.isOption_imp ho) g2 g3 hv, e2⟩

/-- **C15.** Converting a bit-masked, byte-masked or unmasked array to the byte-masked encoding
keeps `to_list(array)` and gives a valid array. -/
theorem C15_to_byte_masked (c : Content) (h : c.validity = ok ()) (ho : c.isOption = true)
    (hi : ∀ p index d, c ≠ .indexedOption p index d)
    (vs : List Val) (hv : c.toList = ok vs) :
    ∃ p mask vw d, c.toByteMasked = ok (.byteMasked p mask vw d) ∧
      (Content.byteMasked p mask vw d).toList = ok vs ∧
      (Content.byteMasked p mask vw d).validity = ok () := by
  exact Content.toByteMasked_ok h ho hi hv

/-- **C15.** `is_none` marks exactly the elements shown as `None`, in every encoding, when the
content under the mask shows no `None` of its own. -/
theorem C15_is_none (c : Content) (h : c.validity = ok ()) (ho : c.isOption = true)
    (vs us : List Val) (hv : c.toList = ok vs) (hu : c.inner.toList = ok us)
    (hn : ∀ u ∈ us, u.isNull = false) :
    ∃ bm, c.bytemask = ok bm ∧ bm.map (fun b => decide (b ≠ 0)) = vs.map Val.isNull := by
  obtain ⟨hwf, hr⟩ := Content.valid_readable h
  obtain ⟨bm, h1, h2, h3⟩ := Content.bytemask_ok hwf ho
  refine ⟨bm, h1, ?_⟩
  have hl := mapN_length hv
  apply List.ext_getElem (by simp; omega)
  intro i hi hi'
  simp only [List.length_map] at hi hi'
  simp only [List.getElem_map]
  rw [Content.isNull_iff_pick hwf ho hv hu hn (by omega)]
  simp [h3 i hi]

/-- **C15.** Dropping the missing elements (`project`, used by `ak.flatten`, reducers and
arithmetic) shows exactly the elements that are not `None`, in order, in every encoding. -/
theorem C15_project (c : Content) (h : c.validity = ok ()) (ho : c.isOption = true)
    (vs us : List Val) (hv : c.toList = ok vs) (hu : c.inner.toList = ok us)
    (hn : ∀ u ∈ us, u.isNull = false) :
    ∃ c', c.project = ok c' ∧ c'.toList = ok (vs.filter (fun v => !v.isNull)) := by
  obtain ⟨hwf, hr⟩ := Content.valid_readable h
  obtain ⟨c', h1, _, h3⟩ := Content.project_ok hwf ho hv
  refine ⟨c', h1, ?_⟩
  rw [h3]
  congr 1
  have hl := mapN_length hv
  have := filterMap_range_get vs 0 vs.length
  simp only [Nat.zero_add, List.drop_zero, List.take_length] at this
  conv_rhs => rw [← this]
  rw [List.filter_filterMap, ← hl]
  apply filterMap_congr'
  intro i hi
  have hi' : i < vs.length := by simpa using hi
  rw [List.getElem?_eq_getElem hi', Option.filter_some,
    Content.isNull_iff_pick hwf ho hv hu hn (by omega)]
  cases c.pick i <;> simp

/-- A bit mask of 11 bits (not a multiple of 8), most significant bit first, over lists. -/
def exampleBitMasked : Content :=
  .bitMasked {} [0b10110010, 0b01011111] false 11 false
    (.regular {} (.numpy {} .int64 ((List.range 22).map (fun (i : Nat) => .int i))) 2 11)

example : exampleBitMasked.validity = ok () := by rfl
example : (exampleBitMasked.toList >>= fun vs => ok (vs.map Val.isNull)) = ok
    [true, false, true, true, false, false, true, false, false, true, false] := by rfl
example : (exampleBitMasked.toIndexedOption >>= Content.toList) = exampleBitMasked.toList := by rfl
example : (exampleBitMasked.toByteMasked >>= Content.toList) = exampleBitMasked.toList := by rfl
example : (exampleBitMasked.inner.toList >>= fun us => ok (us.any Val.isNull)) = ok false := by rfl

/-- **C16.** `simplify()` never changes `to_list(array)`, for every nesting of indexed, option
and masked nodes, and stays well formed. -/
theorem C16_simplify_preserves_values (c : Content) (hwf : c.WF) (vs : List Val)
    (hv : c.toList = ok vs) :
    ∃ c', c.simplifyOption = ok c' ∧ c'.toList = ok vs := by
  obtain ⟨c', h1, h2, _⟩ := Content.simplifyOption_ok hwf hv
  exact ⟨c', h1, h2⟩

/-- **C16 (partial).** `simplify()` of at most two option-type or indexed nodes in a row leaves
at most one, and the result is valid when the content of the outer node was. Missing: deeper
nestings, for which the claim is false (`C16_triple_nesting_violated`). -/
theorem C16_simplify_flat_partial (c : Content) (hwf : c.WF) (vs : List Val)
    (hv : c.toList = ok vs) (hnest : c.nesting ≤ 2) :
    ∃ c', c.simplifyOption = ok c' ∧ c'.toList = ok vs ∧ c'.nesting ≤ 1 ∧
      (c.nesting = 2 → c.params.arr = .none → c.inner.validity = ok () → c'.validity = ok ()) := by
  obtain ⟨c', h1, h2, _, h4, h5⟩ := Content.simplifyOption_ok hwf hv
  refine ⟨c', h1, h2, ?_, ?_⟩
  · by_cases hc : c.nesting ≤ 1
    · rw [h4 hc]; exact hc
    · rw [(h5 (by omega)).1]; omega
  · intro hc
    exact (h5 (by omega)).2

/-- **C16.** What `simplify()` does to any nesting: it removes exactly one node, so applying it
`n - 1` times flattens `n` nodes in a row. -/
theorem C16_simplify_removes_one (c : Content) (hwf : c.WF) (vs : List Val)
    (hv : c.toList = ok vs) (hnest : 2 ≤ c.nesting) :
    ∃ c', c.simplifyOption = ok c' ∧ c'.toList = ok vs ∧ c'.nesting + 1 = c.nesting := by
  obtain ⟨c', h1, h2, _, _, h5⟩ := Content.simplifyOption_ok hwf hv
  exact ⟨c', h1, h2, by rw [(h5 hnest).1]; omega⟩

/-- Three nodes in a row. -/
def exampleTriple : Content :=
  .indexedOption {} [1, -1, 0] (.indexed {} [1, 0]
    (.byteMasked {} [0, 1] false (.numpy {} .int64 [.int 7, .int 8])))

/-- Two nodes in a row. -/
def exampleDouble : Content :=
  .byteMasked {} [1, 0, 1] true
    (.indexedOption {} [1, 0, -1, 1] (.numpy {} .int64 [.int 7, .int 8]))

example : exampleDouble.WF ∧ exampleDouble.nesting = 2 ∧ exampleDouble.inner.validity = ok () ∧
    exampleDouble.toList = ok [.atom (.int 8), .null, .null] := by
  refine ⟨?_, rfl, rfl, rfl⟩
  simp [exampleDouble, Content.WF, Content.len]

/-- **C16, negation.** On three nodes in a row the result of `simplify()` is still nested, and
the validity check rejects it: the full claim of C16 is false. -/
theorem C16_triple_nesting_violated :
    exampleTriple.toList = ok [.atom (.int 7), .null, .null] ∧
    ∃ c', exampleTriple.simplifyOption = ok c' ∧ c'.nesting = 2 ∧ c'.validity.IsErr := by
  refine ⟨rfl, _, rfl, rfl, _, rfl⟩

end Awk.Props
