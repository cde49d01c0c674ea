import Verif.Lemmas.Cartesian
import Verif.Props.Merge
import Verif.Props.Zip
/-
C69: `where`. C70: `with_field`. C71: `cartesian` with axis 0.
-/

namespace Awk.Props
open Awk R Content Spec

/-! ### C69: `where` -/

/-- **C69.** With a flat array of booleans or numbers as its condition, `where` accepts two arrays of the
length of the condition and returns an array that has, in each row, the value of the first array if the
condition is true or not zero, and that of the second array otherwise (values compare as in C17: numbers as
numbers, records as sets of fields).

Partial: conditions with lists or missing values, scalars, arrays of length 1, arrays with fixed-size lists
or unions, and arrays that C17 leaves out. -/
theorem C69_where_partial (same : Content → Content → Bool) (hsame : ∀ a b, same a b = true → a = b)
    (no : Without) (hu : no.union) (hno : no.indexed ∨ no.option) (mb : Bool) (fuel : Nat) (hf : 2 ≤ fuel)
    (p : Params) (dt : DType) (data : List Atom) (left right : Content) (vs ws : List Val)
    (ht : ∀ a ∈ data, Plainly a) (hv : left.validity = ok () ∧ right.validity = ok ())
    (hm : AllNodes (MergeNode no) left ∧ AllNodes (MergeNode no) right)
    (hb : AllNodes BcastNode left ∧ AllNodes BcastNode right)
    (hl : left.toList = ok vs ∧ right.toList = ok ws)
    (hlen : vs.length = data.length ∧ ws.length = data.length) (hn : data.length < 2 ^ 63 - 1) :
    ∃ out zs, whereArray same mb fuel (numpy p dt data) left right = ok (.array out) ∧ out.toList = ok zs ∧
      zs.map Val.canon = (List.range data.length).map (fun i => Val.canon
        (if truth (data[i]?.getD (.int 0)) then vs[i]?.getD .null else ws[i]?.getD .null)) := by
  have hgl := good_of_validity hv.1
  have hgr := good_of_validity hv.2
  rw [hgl.toList, hgr.toList] at hl
  obtain ⟨h1, h2⟩ := hl
  simp only [ok.injEq] at h1 h2
  subst h1; subst h2
  simp only [List.length_map, List.length_range] at hlen
  obtain ⟨out, zs, o1, o2, o3⟩ := where_flat hsame hu hno (mb := mb) hf (p := p) (dt := dt) (data := data) rfl ht
    (left := left) (right := right) ⟨⟨hgl, hm.1⟩, ⟨hgl, hb.1⟩, hlen.1⟩ ⟨⟨hgr, hm.2⟩, ⟨hgr, hb.2⟩, hlen.2⟩ hn
  refine ⟨out, zs, o1, o2, o3.trans (List.map_congr_left (fun i hi => ?_))⟩
  have hi := List.mem_range.mp hi
  simp [hlen.1, hlen.2, hi]

/-- A condition, lists of integers and records of different kinds: the result is a union. -/
example : ∃ out, whereArray (fun _ _ => false) false 9 (numpy {} .bool [.bool true, .bool false, .bool true])
      (listOffset {} [0, 2, 2, 3] (intArray [1, 2, 3]))
      (record {} (some ["x"]) [intArray [7, 8, 9]] 3) = ok (.array out) ∧
    out.toList = ok [.list [.atom (.int 1), .atom (.int 2)], .record [("x", .atom (.int 8))],
      .list [.atom (.int 3)]] :=
  ⟨_, rfl, R.lists (by decide +kernel)⟩

/-- Two arrays, of lists and of records with missing values, that meet the hypotheses. -/
example : ∃ out zs, whereArray (fun _ _ => false) true 2 (numpy {} .int64 [.int 0, .int 5])
      (listOffset {} [0, 2, 3] (intArray [1, 2, 3]))
      (indexedOption {} [0, -1] (record {} (some ["x"]) [intArray [7]] 1)) = ok (.array out) ∧
    out.toList = ok zs ∧ zs.map Val.canon
      = [(Val.record [("x", .atom (.int 7))]).canon, (Val.list [.atom (.int 3)]).canon] := by
  obtain ⟨out, zs, h1, h2, h3⟩ := C69_where_partial (fun _ _ => false) (fun _ _ h => Bool.noConfusion h)
    ⟨True, True, False, False⟩ trivial (.inl trivial) true 2 (by omega) {} .int64 [.int 0, .int 5]
    (listOffset {} [0, 2, 3] (intArray [1, 2, 3]))
    (indexedOption {} [0, -1] (record {} (some ["x"]) [intArray [7]] 1))
    [.list [.atom (.int 1), .atom (.int 2)], .list [.atom (.int 3)]] [.record [("x", .atom (.int 7))], .null]
    (by simp [Plainly]) ⟨rfl, rfl⟩
    (by constructor <;> simp [all_numpy, all_listOffset, all_indexedOption, all_record, MergeNode, intArray, len])
    (by constructor <;> simp [all_numpy, all_listOffset, all_indexedOption, all_record, BcastNode, intArray])
    ⟨R.lists (by decide +kernel), R.lists (by decide +kernel)⟩ ⟨rfl, rfl⟩ (by simp)
  exact ⟨out, zs, h1, h2, h3.trans (by rfl)⟩

/-- **C69 is violated:** if one array has complex numbers and the other has real ones, the result has
numbers of neither array: the second row should be `7 + 8i`. (See `C18_complex_violated`.) -/
theorem C69_complex_violated : ∃ out rest, whereArray (fun _ _ => false) false 9
      (numpy {} .bool [.bool true, .bool false, .bool true])
      (numpy {} .float64 [.real 3, .real 4, .real 5])
      (numpy {} .complex128 [.complex 5 6, .complex 7 8, .complex 9 10]) = ok (.array out) ∧
    out.toList = ok (.atom (.complex 3 0) :: .atom (.complex 10 0) :: rest) :=
  ⟨_, [.atom (.complex 6 7)], rfl, R.lists (by decide +kernel)⟩

/-- A condition in lists chooses items of lists. -/
example : ∃ out, whereArray (fun _ _ => false) false 9
      (listOffset {} [0, 2, 3] (numpy {} .int64 [.int 5, .int 0, .int 0]))
      (listOffset {} [0, 2, 3] (intArray [1, 2, 3])) (listOffset {} [0, 2, 3] (intArray [10, 20, 30]))
      = ok (.array out) ∧
    out.toList = ok [.list [.atom (.int 1), .atom (.int 20)], .list [.atom (.int 30)]] :=
  ⟨_, rfl, R.lists (by decide +kernel)⟩

/-! ### C70: `with_field` -/

/-- **C70.** `with_field` of an array of records (or tuples) and an array of the same length is accepted if
a field is left, and every row of the result is the record of the base with the new field: fields of other
names are unchanged, a field of the same name is replaced.

Partial: records inside of lists or options, lengths that differ, names that are paths, bases whose only
field is replaced (`C70_only_field_violated`). -/
theorem C70_with_field_partial (fuel : Nat) (hf : 2 ≤ fuel) (p : Params) (keys : Option (List String))
    (ds : List Content) (n : Nat) (what : Content) (where_ : Option String) (vs ws : List Val)
    (hv : (record p keys ds n).validity = ok () ∧ what.validity = ok ())
    (hl : (record p keys ds n).toList = ok vs ∧ what.toList = ok ws) (hlen : ws.length = vs.length)
    (hn : n < 2 ^ 63 - 1) (ht : keys = none → ds.length < 2 ^ 31)
    (hk : ∀ ks, keys = some ks → ks.length = ds.length ∧ ks.Nodup)
    (hkeep : ∃ k ∈ recordKeys keys ds.length, some k ≠ where_) :
    ∃ out, withField fuel (record p keys ds n) what where_ = ok (.array out) ∧
      out.toList = ok (List.zipWith (Val.withField where_) vs ws) := by
  have hgl := good_of_validity hv.1
  have hgr := good_of_validity hv.2
  rw [hgl.toList, hgr.toList] at hl
  obtain ⟨h1, h2⟩ := hl
  simp only [ok.injEq] at h1 h2
  subst h1; subst h2
  simp only [List.length_map, List.length_range, len] at hlen
  obtain ⟨out, o1, o2⟩ := withField_flat hf (where_ := where_) hgl ⟨hgr, hlen⟩ hn ht hk (by
    obtain ⟨k, h1, h2⟩ := hkeep
    cases where_ with
    | none => exact List.ne_nil_of_mem h1
    | some w =>
      exact List.ne_nil_of_mem ((List.mem_erase_of_ne (fun h => h2 (by rw [h]))).mpr h1))
  refine ⟨out, o1, o2.trans ?_⟩
  congr 1
  apply List.ext_getElem
  · simp [len, hlen]
  · intro i h3 h4
    simp

/-- Records with the fields x and y get a new x, which is a list. -/
example : ∃ out, withField 9 (record {} (some ["x", "y"]) [intArray [1, 2], intArray [3, 4]] 2)
      (listOffset {} [0, 2, 3] (intArray [7, 8, 9])) (some "x") = ok (.array out) ∧
    out.toList = ok [.record [("y", .atom (.int 3)), ("x", .list [.atom (.int 7), .atom (.int 8)])],
      .record [("y", .atom (.int 4)), ("x", .list [.atom (.int 9)])]] :=
  ⟨_, rfl, R.lists (by decide +kernel)⟩

/-- Records in lists get a new field. -/
example : ∃ out, withField 9 (listOffset {} [0, 2, 3] (record {} (some ["x"]) [intArray [1, 2, 3]] 3))
      (intArray [7, 8]) (some "y") = ok (.array out) ∧
    out.toList = ok [.list [.record [("x", .atom (.int 1)), ("y", .atom (.int 7))],
        .record [("x", .atom (.int 2)), ("y", .atom (.int 7))]],
      .list [.record [("x", .atom (.int 3)), ("y", .atom (.int 8))]]] :=
  ⟨_, rfl, R.lists (by decide +kernel)⟩

/-- **C70 is violated:** if the only field of the records is replaced, the lists around the records are
lost. With another field beside it, they are kept. -/
theorem C70_only_field_violated :
    (∃ out, withField 9 (listOffset {} [0, 2, 3] (record {} (some ["x"]) [intArray [1, 2, 3]] 3))
        (intArray [7, 8]) (some "x") = ok (.array out) ∧
      out.toList = ok [.record [("x", .atom (.int 7))], .record [("x", .atom (.int 8))]]) ∧
    (∃ out, withField 9 (listOffset {} [0, 2, 3] (record {} (some ["x", "y"])
          [intArray [1, 2, 3], intArray [4, 5, 6]] 3)) (intArray [7, 8]) (some "x") = ok (.array out) ∧
      out.toList = ok [.list [.record [("y", .atom (.int 4)), ("x", .atom (.int 7))],
          .record [("y", .atom (.int 5)), ("x", .atom (.int 7))]],
        .list [.record [("y", .atom (.int 6)), ("x", .atom (.int 8))]]]) :=
  ⟨⟨_, rfl, R.lists (by decide +kernel)⟩, ⟨_, rfl, R.lists (by decide +kernel)⟩⟩

/-- **C70 is violated:** if the only field is replaced, arrays of different lengths are accepted, and the
result does not have the length of the base. With another field beside it, they are refused. -/
theorem C70_only_field_length_violated :
    (∃ out, withField 9 (record {} (some ["x"]) [intArray [1, 2, 3]] 3) (intArray [7, 8]) (some "x")
        = ok (.array out) ∧
      out.toList = ok [.record [("x", .atom (.int 7))], .record [("x", .atom (.int 8))]]) ∧
    (withField 9 (record {} (some ["x", "y"]) [intArray [1, 2, 3], intArray [4, 5, 6]] 3) (intArray [7, 8])
        (some "x")).IsErr :=
  ⟨⟨_, rfl, R.lists (by decide +kernel)⟩, ⟨_, rfl⟩⟩

/-- **C70 is violated:** without a name, the new field may get a name that the records already have. -/
theorem C70_duplicate_violated : ∃ out, withField 9 (record {} (some ["1"]) [intArray [1, 2]] 2)
      (intArray [7, 8]) none = ok (.array out) ∧
    out.toList = ok [.record [("1", .atom (.int 1)), ("1", .atom (.int 7))],
      .record [("1", .atom (.int 2)), ("1", .atom (.int 8))]] :=
  ⟨_, rfl, R.lists (by decide +kernel)⟩

/-! ### C71: `cartesian` with axis 0 -/

/-- **C71.** `cartesian` with axis 0 of any number of arrays of any lengths and types has one record for each
choice of one element of every array, in the order of nested loops. -/
theorem C71_cartesian (p : Params) (keys : Option (List String)) (cs : List Content) (vss : List (List Val))
    (hne : cs ≠ []) (hv : ∀ c ∈ cs, c.validity = ok ()) (hl : mapR toList cs = ok vss) :
    ∃ out, cartesian0 p keys [] cs = ok out ∧ out.toList = ok ((product vss).map (mkRecord keys)) := by
  have hg : ∀ c ∈ cs, c.Good := fun c hc => good_of_validity (hv c hc)
  rw [mapR_toList hg] at hl
  simp only [ok.injEq] at hl; subst hl
  refine ⟨_, ?_, (cartesian_flat (p := p) (keys := keys) hne hg).2.2⟩
  have : ∀ (i : Nat) (r : Content), nestAll [] cs i r = ok r := by
    intro i r
    induction i with
    | zero => rfl
    | succ i ih => simpa [nestAll] using ih
  exact this _ _

/-- **C71, `nested=True`.** If no array but the first is empty, `nested=True` (for arrays that are not in a
dict) has one element for each element of the first array, in which lists for the second array contain
lists for the third, and so on.

Partial: empty arrays after the first (`C71_nested_empty_violated`), dicts (`C71_nested_dict_violated`),
other values of `nested` (`C71_nested_some_violated`). -/
theorem C71_nested_partial (p : Params) (keys : Option (List String)) (cs : List Content) (vs : List Val)
    (vss : List (List Val)) (hv : ∀ c ∈ cs, c.validity = ok ()) (hl : mapR toList cs = ok (vs :: vss))
    (hpos : ∀ ws ∈ vss, ws ≠ []) :
    ∃ out, cartesian0 p keys (nestedTrue false cs.length) cs = ok out ∧
      out.toList = ok (vs.map (fun v => nestedProduct (mkRecord keys) [v] vss)) := by
  have hg : ∀ c ∈ cs, c.Good := fun c hc => good_of_validity (hv c hc)
  rw [mapR_toList hg] at hl
  simp only [ok.injEq] at hl
  have hne : cs ≠ [] := fun h => by simp [h] at hl
  obtain ⟨h1, _, h3⟩ := cartesian_flat (p := p) (keys := keys) hne hg
  have hcl : cs.length = (cs.length - 1) + 1 := by
    have := List.length_pos_iff.mpr hne
    omega
  unfold cartesian0 nestedTrue
  simp only [Bool.false_eq_true, if_false]
  generalize hr : record p keys (List.zipWith (fun idx c => indexed {} idx c) (meshIndexes (cs.map len)) cs)
    (minLength (List.zipWith (fun idx c => indexed {} idx c) (meshIndexes (cs.map len)) cs)) = r at h1 h3
  obtain ⟨out, o1, _, o3⟩ := nestAll_all (mk := mkRecord keys) (cs := cs) rfl (by
      intro c hc
      have : (List.range c.len).map c.valD ∈ vss := by
        have h := congrArg List.tail hl
        simp only [List.tail_cons] at h
        rw [← h, ← List.map_tail]
        exact List.mem_map_of_mem hc
      have := hpos _ this
      refine Nat.pos_of_ne_zero (fun h => this ?_)
      simp [h]) (cs.length - 1) (by omega) r h1 (by
      rw [h3, ← hcl, List.take_of_length_le (by simp), List.drop_of_length_le (by simp)]
      simp [nestedProduct])
  refine ⟨out, ?_, o3.trans ?_⟩
  · have hstep : ∀ m, cs.length = m + 1 → nestAll (List.range m) cs m r = ok out →
        nestAll (List.range (cs.length - 1)) cs cs.length r = ok out := by
      intro m hm h
      rw [hm, nestAll, if_neg (by simp)]
      exact h
    exact hstep _ hcl o1
  · rw [hl]
    simp only [List.take_succ_cons, List.take_zero, List.drop_succ_cons, List.drop_zero, product]
    congr 1
    clear hl hr h3 o3 o1
    induction vs with
    | nil => rfl
    | cons v vs ih => simpa using ih

example : ∃ out, cartesian0 {} (some ["x", "y"]) [] [intArray [1, 2], twoStrings] = ok out ∧
    out.toList = ok [
      .record [("x", .atom (.int 1)), ("y", .str [.atom (.int 97), .atom (.int 98)])],
      .record [("x", .atom (.int 1)), ("y", .str [.atom (.int 99)])],
      .record [("x", .atom (.int 2)), ("y", .str [.atom (.int 97), .atom (.int 98)])],
      .record [("x", .atom (.int 2)), ("y", .str [.atom (.int 99)])]] :=
  ⟨_, rfl, R.lists (by decide +kernel)⟩

example : ∃ out, cartesian0 {} none (nestedTrue false 3) [intArray [1, 2], intArray [3, 4], intArray [5]] = ok out ∧
    out.toList = ok [
      .list [.list [.tuple [.atom (.int 1), .atom (.int 3), .atom (.int 5)]],
        .list [.tuple [.atom (.int 1), .atom (.int 4), .atom (.int 5)]]],
      .list [.list [.tuple [.atom (.int 2), .atom (.int 3), .atom (.int 5)]],
        .list [.tuple [.atom (.int 2), .atom (.int 4), .atom (.int 5)]]]] :=
  ⟨_, rfl, R.lists (by decide +kernel)⟩

/-- **C71 is violated:** with `nested=True` and an empty second array, the result is empty, although the
first array has elements, each of which should have an empty list. -/
theorem C71_nested_empty_violated : ∃ out,
    cartesian0 {} none (nestedTrue false 2) [intArray [1, 2], intArray []] = ok out ∧ out.toList = ok [] ∧
    ([1, 2] : List Int).map (fun v => nestedProduct (mkRecord none) [.atom (.int v)] [[]])
      = [.list [], .list []] :=
  ⟨_, rfl, R.lists (by decide +kernel), by simp [nestedProduct]⟩

/-- **C71 is violated:** `nested=True` of a dict of arrays, however many and whatever they are, raises an
error. -/
theorem C71_nested_dict_violated (p : Params) (keys : List String) (cs : List Content) (hne : cs ≠ []) :
    cartesian0 p (some keys) (nestedTrue true cs.length) cs = err "IndexError" := by
  obtain ⟨c, cs, rfl⟩ := List.exists_cons_of_ne_nil hne
  simp [cartesian0, nestedTrue, nestAll]

/-- **C71 is violated:** with three arrays and `nested=[0]`, which should make one list for each element of
the first array, the lists have the length of the second array and contain choices with the same element of
the first array only by accident. -/
theorem C71_nested_some_violated : ∃ out,
    cartesian0 {} none [0] [intArray [1, 2], intArray [3], intArray [5, 6]] = ok out ∧
    out.toList = ok [
      .list [.tuple [.atom (.int 1), .atom (.int 3), .atom (.int 5)]],
      .list [.tuple [.atom (.int 1), .atom (.int 3), .atom (.int 6)]],
      .list [.tuple [.atom (.int 2), .atom (.int 3), .atom (.int 5)]],
      .list [.tuple [.atom (.int 2), .atom (.int 3), .atom (.int 6)]]] :=
  ⟨_, rfl, R.lists (by decide +kernel)⟩

/-- **C71 is violated:** the result for an array with missing values is not a valid array. -/
theorem C71_invalid_violated : ∃ (c out : Content), c.validity = ok () ∧
    cartesian0 {} none [] [c, c] = ok out ∧ out.validity.IsErr :=
  ⟨indexedOption {} [0, -1] (intArray [7]), _, rfl, rfl, ⟨_, rfl⟩⟩

end Awk.Props
