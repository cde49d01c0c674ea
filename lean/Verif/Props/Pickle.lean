import Verif.Model.Pickle
import Verif.Lemmas.Pickle
import Verif.Props.Buffers
import Verif.Props.Packed
/-
C92: pickling.
-/

namespace Awk.Props
open R Content

/-- **C92 (partial).** An array can be pickled, and the array that is made from the pickle shows the same elements, as
Python compares them: the fields of a record are in the order of their names. The numbers must fit in their dtypes and
the names of the fields must be distinct (`Storable`, of the packed array). The types are equal, too, if the nodes that
packing rebuilds have no parameters (`bare`, see `C92_type_violated`) and no field of a record is a BitMaskedArray.
Missing: arrays that cannot be packed (`Packable`, see C60), and the content of arrays of no lists of fixed size
(`FilledNode`, see `C92_empty_violated`). -/
theorem C92_pickle_partial (same : Content → Content → Bool) (w : Walk) (hd : w.nm.Distinct) (bare : Bool) (c : Content)
    (h : c.validity = ok ()) (hp : Packable bare false c) (vs : List Val) (hv : c.toList = ok vs)
    (hs : ∀ d, c.packed same = ok d → Storable w.fl w.kind 0 d ∧ AllNodes FilledNode d) :
    ∃ state e, c.getstate same w = ok state ∧ setstate w state = ok e ∧ e.toList = ok (vs.map Val.sortFields) ∧
      ((bare = true ∧ ∀ d, c.packed same = ok d → d.NoBitFields) →
        ∀ typestrs, (e.type typestrs).sortFields = (c.type typestrs).sortFields) := by
  have hg := good_of_validity h
  obtain ⟨d, h1, h2⟩ := packF_ok same (2 * c.rank + 2) (lv := none) hg hp (by omega)
  obtain ⟨hs1, hs2⟩ := hs d h1
  have hr := Ordinary.restorable d.rank d d.len (Nat.le_refl _) h2.good (packed_ordinary h2.packed hs2) (by omega)
    (Int.le_refl _)
  have hdl : d.toList = ok vs := by
    rw [← hv, hg.toList, h2.good.toList, h2.len]
    congr 1
    exact List.map_congr_left fun i hi => h2.vals i (List.mem_range.mp hi)
  obtain ⟨form, cont', e, hfl⟩ := fill_filled hd d.rank d 0 [] h2.good (Nat.le_refl _) hs1
  obtain ⟨c', e', hR⟩ := hfl.back ⟨w.fl, w.nm.key_format, cont', toString w.part⟩
    ⟨rfl, rfl, rfl, fun _ _ _ _ => rfl⟩ d.len hr (by omega) (Int.le_refl _)
  obtain ⟨_, ⟨us, hus, hus'⟩, hsk⟩ := copy_of_rebuilt h2.good hR
  rw [hdl, ok.injEq] at hus
  subst hus
  refine ⟨(form, d.len, cont'), c', ?_, e', hus', fun ⟨hb, hnb⟩ ts => ?_⟩
  case refine_2 => rw [← skeleton_type, hsk (hnb d h1), skeleton_type, h2.type hb]
  unfold getstate
  rw [show c.packed same = ok d from h1, bind_ok]
  unfold toBuffers
  rw [e, bind_ok]

/-- **C92, of records (partial).** A record of an array can be pickled, and the record that is made from the pickle shows
the same fields. Missing: as above. -/
theorem C92_record_partial (same : Content → Content → Bool) (w : Walk) (hd : w.nm.Distinct) (bare : Bool) (p : Params)
    (keys : Option (List String)) (cs : List Content) (length : Nat) (h : (record p keys cs length).validity = ok ())
    (hp : Packable bare false (record p keys cs length)) (i : Nat) (hi : i < length) (v : Val)
    (hv : (record p keys cs length).val i = ok v)
    (hs : ∀ d, (record p keys cs length).packed same = ok d → Storable w.fl w.kind 0 d ∧ AllNodes FilledNode d) :
    ∃ state e, (record p keys cs length).getstateRecord same w i = ok state ∧
      setstateRecord w state = ok (.record e i) ∧ e.len = length ∧ e.val i = ok v.sortFields := by
  have hg := good_of_validity h
  obtain ⟨state, e, h1, h2, h3, _⟩ := C92_pickle_partial same w hd bare _ h hp _ hg.toList hs
  simp only [getstate, bind_eq_ok] at h1
  obtain ⟨d, h4, h5⟩ := h1
  obtain ⟨es, rfl⟩ := packed_record h4
  have h6 := h5
  simp only [toBuffers, bind_eq_ok] at h6
  obtain ⟨⟨form, st⟩, h6, h7⟩ := h6
  obtain ⟨forms, fk, rfl⟩ := fill_record h6
  have h7 := ok.inj h7
  subst h7
  obtain ⟨ks, es', rfl⟩ := formToLayout_record (fk := fk) (n := length) h2
  refine ⟨((.record p keys forms fk, length, st.2), i), record p ks es' length, ?_, ?_, rfl, ?_⟩
  · simp only [getstateRecord, h4, bind_ok, newRecordItem, if_pos hi, h5]
    rfl
  · have h8 : setstate w (.record p keys forms fk, length, st.2) = ok (record p ks es' length) := h2
    simp only [setstateRecord, h8, bind_ok, newRecordItem, if_pos hi]
  · have h9 := mapN_get h3 (i := i) hi
    simp only [List.getElem_map, List.getElem_range, valD_eq hv] at h9
    exact h9

/-- Lists whose offsets are beyond their content, which cannot be restored as they are (`C36_offsets_violated`), and
lists of missing values in any order. -/
def pickleExample : Content :=
  .record {} (some ["y", "x"]) [.listOffset {} [3, 3] (.empty {}),
    .listArray {} [1] [3] (.indexedOption {} [5, 1, -1, 0] (bufInts [7, 8, 9, 10, 11, 12]))] 1

example : pickleExample.validity = ok () ∧ Packable true false pickleExample ∧
    pickleExample.toList = ok [.record [("y", .list []), ("x", .list [.atom (.int 8), .null])]] ∧
    pickleExample.packed (fun _ _ => false) = ok (.record {} (some ["y", "x"]) [.listOffset {} [0, 0] (.empty {}),
      .listOffset {} [0, 2] (.indexedOption {} [0, -1] (bufInts [8]))] 1) ∧
    (pickleExample.getstate (fun _ _ => false) wide >>= fun s => setstate wide s >>= Content.toList) =
      ok [.record [("x", .list [.atom (.int 8), .null]), ("y", .list [])]] := by
  refine ⟨rfl, ?_, rfl, rfl, rfl⟩
  simp [pickleExample, Packable, PackableAll, isOption, isOptionOrIndexed, bufInts]

example : (pickleExample.getstateRecord (fun _ _ => false) wide 0 >>= setstateRecord wide) = ok (.record
    (.record {} (some ["x", "y"]) [.listOffset {} [0, 2] (.indexedOption {} [0, -1] (bufInts [8])),
      .listOffset {} [0, 0] (.empty {})] 1) 0) := rfl

/-- The packed example meets the hypotheses. -/
example : Storable wide.fl wide.kind 0 (.record {} (some ["y", "x"]) [.listOffset {} [0, 0] (.empty {}),
      .listOffset {} [0, 2] (.indexedOption {} [0, -1] (bufInts [8]))] 1) := by
  have has : ∀ x : Int, -2 ^ 63 ≤ x ∧ x < 2 ^ 63 → IndexKind.i64.Has x := fun x h => h
  refine .record (fields := [.listOffset {} [0, 0] (.empty {}),
      .listOffset {} [0, 2] (.indexedOption {} [0, -1] (bufInts [8]))]) (by decide) rfl rfl ?_
  intro j c hj
  match j, hj with
  | 0, hj =>
    cases hj
    exact .listOffset (by decide) (fun x hx => has x (by revert x; decide)) .empty
  | 1, hj =>
    cases hj
    exact .listOffset (by decide) (fun x hx => has x (by revert x; decide))
      (.indexedOption (by decide) (fun x hx => has x (by revert x; decide)) (int64s_storable (by decide)))
  | j + 2, hj => simp at hj

example : NoBitFields (.record {} (some ["y", "x"]) [.listOffset {} [0, 0] (.empty {}),
      .listOffset {} [0, 2] (.indexedOption {} [0, -1] (bufInts [8]))] 1) :=
  ⟨trivial, trivial, trivial⟩

/-- An array of no lists of size 2, with a list in its content that is not used. -/
def noPairs : Content := .regular {} (.listOffset {} [3, 3] (.empty {})) 2 0

/-- **C92 is false for arrays of no lists of fixed size**: packing leaves their content as it is, and it may be one that
cannot be restored. -/
theorem C92_empty_violated (same : Content → Content → Bool) : noPairs.validity = ok () ∧ noPairs.toList = ok [] ∧
    ∃ state, noPairs.getstate same wide = ok state ∧ (setstate wide state).IsErr :=
  ⟨rfl, rfl, _, rfl, _, rfl⟩

/-- **C92 is false for lists of fixed size zero**, which cannot be packed, and so not pickled. -/
theorem C92_size_zero_violated (same : Content → Content → Bool) : emptyListsExample.validity = ok () ∧
    emptyListsExample.toList = ok [.list [], .list []] ∧ (emptyListsExample.getstate same wide).IsErr :=
  ⟨rfl, rfl, _, rfl⟩

/-- **C92 is false for types**: categories come back as plain values. -/
theorem C92_type_violated (same : Content → Content → Bool) : categoriesExample.validity = ok () ∧
    ∃ state e, categoriesExample.getstate same wide = ok state ∧ setstate wide state = ok e ∧
      categoriesExample.type [] = .prim { params := { other := [("__categorical__", "true")] } } .int64 ∧
      e.type [] = .prim {} .int64 :=
  ⟨rfl, _, _, rfl, rfl, rfl, rfl⟩

end Awk.Props
