import Verif.Lemmas.BufferParts
import Verif.Lemmas.BufferOrdinary
import Verif.Lemmas.ValEq
/-
C36: an array that is taken apart by `ak.to_buffers` and put together by `ak.from_buffers` is the
same array.
-/

namespace Awk.Props
open R Content

/-- No names of buffers clash under the default `form_key` and `key_format`. -/
theorem C36_default_names : defaultNaming.Distinct := by
  have digits : ∀ n : Nat, ∀ x ∈ (toString n).toList, x ≠ '-' := by
    intro n x hx
    have hx' : x ∈ n.repr.toList := hx
    rw [Nat.toList_repr] at hx'
    have := Nat.isDigit_of_mem_toDigits (by decide) (by decide) hx'
    rintro rfl
    exact absurd this (by decide)
  have split : ∀ (l l' r r' : List Char), (∀ x ∈ l, x ≠ '-') → (∀ x ∈ l', x ≠ '-') →
      l ++ '-' :: r = l' ++ '-' :: r' → l = l' ∧ r = r' := by
    intro l
    induction l with
    | nil =>
      intro l' r r' _ h' h
      cases l' with
      | nil => exact ⟨rfl, by simpa using h⟩
      | cons x l' =>
        simp only [List.nil_append, List.cons_append, List.cons.injEq] at h
        exact absurd h.1.symm (h' x List.mem_cons_self)
    | cons x l ih =>
      intro l' r r' h1 h' h
      cases l' with
      | nil =>
        simp only [List.nil_append, List.cons_append, List.cons.injEq] at h
        exact absurd h.1 (h1 x List.mem_cons_self)
      | cons y l' =>
        simp only [List.cons_append, List.cons.injEq] at h
        obtain ⟨e1, e2⟩ := ih l' r r' (fun z hz => h1 z (List.mem_cons_of_mem _ hz))
          (fun z hz => h' z (List.mem_cons_of_mem _ hz)) h.2
        exact ⟨by rw [h.1, e1], e2⟩
  intro i a p j b q h
  have h := congrArg String.toList h
  simp only [Naming.key, defaultNaming, String.toList_append, List.append_assoc] at h
  rw [List.append_cancel_left_eq] at h
  rw [show "-".toList = ['-'] from rfl] at h
  simp only [List.singleton_append] at h
  obtain ⟨e1, e2⟩ := split _ _ _ _ (digits p) (digits q) h
  rw [List.append_cancel_left_eq] at e2
  obtain ⟨e3, e4⟩ := split _ _ _ _ (digits i) (digits j) e2
  exact ⟨Nat.repr_injective (String.toList_inj.mp e3), String.toList_inj.mp e4,
    Nat.repr_injective (String.toList_inj.mp e1)⟩

/-- What it means that `c'` is a copy of `c`: the elements are equal as Python objects, and, unless
there is a `BitMaskedArray` in a field of a record, the forms are equal. -/
def CopyOf (c c' : Content) : Prop :=
  c'.len = c.len ∧ (∃ vs, c.toList = ok vs ∧ c'.toList = ok (vs.map Val.sortFields)) ∧
    (c.NoBitFields → c'.skeleton = c.skeleton)

theorem copy_of_rebuilt {c c' : Content} (hg : c.Good) (h : Rebuilt c c' c.len) : CopyOf c c' := by
  have hl := rebuilt_len h
  refine ⟨hl, ⟨_, hg.toList, ?_⟩, h.skel⟩
  unfold Content.toList
  rw [hl, List.map_map]
  exact mapN_ok' (n := c.len) (f := fun i => c'.val i) (fun i => (c.valD i).sortFields)
    (fun i hi => h.val i (by omega))

/-- A valid array can be taken apart, whatever the container holds already, and buffers with other
names are left alone. If the array is `Restorable`, putting it together from that container gives
a copy. The full property has no `Restorable`, and it keeps the order of the fields; see
`C36_offsets_violated`, `C36_mask_violated`, `C36_field_order_violated`. -/
theorem C36_round_trip_partial {w : Walk} (hd : w.nm.Distinct) {c : Content}
    (hv : c.validity = ok ()) (hs : Storable w.fl w.kind 0 c) (container : Container) :
    ∃ form container', toBuffers w c container = ok (form, c.len, container') ∧
      (∀ key, (∀ i attr, key ≠ w.nm.key i attr w.part) →
        container'.lookup key = container.lookup key) ∧
      (Restorable c c.len →
        ∃ c', fromBuffers w.fl w.nm.key_format form c.len container' w.part = ok c' ∧
          CopyOf c c') := by
  have hg := good_of_validity hv
  obtain ⟨form, cont', e, h⟩ := fill_filled hd c.rank c 0 container hg (Nat.le_refl _) hs
  refine ⟨form, cont', by unfold toBuffers; rw [e, bind_ok],
    fun key hk => h.keeps key (fun j attr _ _ => hk j attr), fun hr => ?_⟩
  obtain ⟨c', e', hR⟩ := h.back ⟨w.fl, w.nm.key_format, cont', toString w.part⟩
    ⟨rfl, rfl, rfl, fun _ _ _ _ => rfl⟩ c.len hr (by omega) (Int.le_refl _)
  exact ⟨c', e', copy_of_rebuilt hg hR⟩

/-- Valid arrays whose offsets point into their content, and in which the content of every mask
stores its length, are `Restorable`. -/
theorem C36_ordinary {c : Content} (hv : c.validity = ok ()) (ho : c.Ordinary) :
    Restorable c c.len :=
  Ordinary.restorable c.rank c c.len (Nat.le_refl _) (good_of_validity hv) ho (by omega)
    (Int.le_refl _)

/-- The same for a partitioned array: either the forms of two partitions differ, which is an error,
or every partition is copied, and the partitions begin and end where they should. -/
theorem C36_partitions_partial {w : Walk} (hd : w.nm.Distinct) {parts : List Content}
    (hne : parts ≠ []) (hv : ∀ c ∈ parts, c.validity = ok ())
    (hs : ∀ c ∈ parts, Storable w.fl w.kind 0 c) (container : Container) :
    toBuffersParts w parts container
        = err "the Form of a partition differs from the first Form" ∨
      ∃ form container', toBuffersParts w parts container
          = ok (form, parts.map len, container') ∧
        ((∀ c ∈ parts, Restorable c c.len) →
          ∃ parts' stops, fromBuffersParts w.fl w.nm.key_format form (parts.map len) container'
              w.part = ok (parts', stops) ∧
            List.Forall₂ CopyOf parts parts' ∧ stops.length = parts.length ∧
            ∀ i < parts.length, stops[i]? = some (((parts.map len).take (i + 1)).sum)) := by
  cases parts with
  | nil => exact absurd rfl hne
  | cons c cs =>
    have hg : ∀ d ∈ c :: cs, d.Good := fun d hd => good_of_validity (hv d hd)
    obtain ⟨form, cont1, e1, h1⟩ := fill_filled hd c.rank c 0 container
      (hg c List.mem_cons_self) (Nat.le_refl _) (hs c List.mem_cons_self)
    simp only [toBuffersParts]
    rw [e1, bind_ok]
    simp only
    rcases partsNext hd h1.named cs (w.part + 1) cont1 (fun d hd =>
      ⟨hg d (List.mem_cons_of_mem _ hd), hs d (List.mem_cons_of_mem _ hd)⟩) with
      e2 | ⟨cont2, e2, k2, b2⟩
    · left; rw [e2]; rfl
    right
    refine ⟨form, cont2, by rw [e2, bind_ok]; rfl, fun hr => ?_⟩
    obtain ⟨c', e3, hR⟩ := h1.back ⟨w.fl, w.nm.key_format, cont2, toString w.part⟩
      (AgreeParts.reads (q := w.part) (r := w.part + 1) hd (Nat.le_refl _) (by omega)
        (fun _ _ _ _ _ => rfl : AgreeParts w.nm w.part (w.part + 1) cont2 cont2) k2
        (.inl (by omega))) c.len (hr c List.mem_cons_self) (by omega) (Int.le_refl _)
    obtain ⟨cs', e4, hF⟩ := b2 (fun d hd => hr d (List.mem_cons_of_mem _ hd)) cont2
      (fun _ _ _ _ _ => rfl) (0 + c.len)
    refine ⟨c' :: cs', runningSums 0 ((c :: cs).map len), ?_, ?_, by simp [runningSums_length], ?_⟩
    · unfold fromBuffersParts
      simp only [List.map_cons, fromBuffersNext]
      rw [e3, bind_ok, rebuilt_len hR, e4, bind_ok]
      rfl
    · refine .cons (copy_of_rebuilt (hg c List.mem_cons_self) hR) ?_
      exact forall₂_imp_left hF (fun d hd d' h =>
        copy_of_rebuilt (hg d (List.mem_cons_of_mem _ hd)) h)
    · intro i hi
      rw [runningSums_get (by simpa using hi), Nat.zero_add]

/-! ### Cases that meet the hypotheses -/

/-- Floating point numbers are not used below. -/
def noFloats : Floats := ⟨fun n _ => List.replicate n 0, fun _ _ => 0⟩

/-- 64-bit indexes everywhere, and the default names. -/
def wide : Walk := ⟨noFloats, defaultNaming, fun _ => .i64, 0⟩

/-- Integers. -/
def bufInts (l : List Int) : Content := .numpy {} .int64 (l.map Atom.int)

theorem int64s_storable {id : Nat} {l : List Int} (h : ∀ x ∈ l, -2 ^ 63 ≤ x ∧ x < 2 ^ 63) :
    Storable wide.fl wide.kind id (bufInts l) := by
  refine .numpy fun a ha => ?_
  obtain ⟨x, hx, rfl⟩ := List.mem_map.mp ha
  have := h x hx
  exact ⟨-2 ^ 63, 64, rfl, this.1, by omega⟩

/-- Lists of missing values in one field, a union in the other; the fields are not in the order of
their names. -/
def mixed : Content :=
  .record {} (some ["y", "x"])
    [.listOffset {} [0, 2, 2, 3] (.indexedOption {} [1, -1, 0] (bufInts [7, 8])),
      .union {} [0, 1, 0] [1, 0, 0] [bufInts [5, 6], .listArray {} [0] [2] (bufInts [3, 4])]] 3

theorem mixed_storable : Storable wide.fl wide.kind 0 mixed := by
  have has : ∀ x : Int, -2 ^ 63 ≤ x ∧ x < 2 ^ 63 → IndexKind.i64.Has x := fun x h => h
  refine .record (fields := [.listOffset {} [0, 2, 2, 3] (.indexedOption {} [1, -1, 0] (bufInts [7, 8])),
      .union {} [0, 1, 0] [1, 0, 0] [bufInts [5, 6], .listArray {} [0] [2] (bufInts [3, 4])]])
    (by decide) rfl rfl ?_
  intro j c hj
  match j, hj with
  | 0, hj =>
    cases hj
    exact .listOffset (by decide) (fun x hx => has x (by revert x; decide))
      (.indexedOption (by decide) (fun x hx => has x (by revert x; decide))
        (int64s_storable (by decide)))
  | 1, hj =>
    cases hj
    refine .union (by decide) (fun x hx => ?_) (fun x hx => has x (by revert x; decide)) (by simp) ?_
    · show -2 ^ 7 ≤ x ∧ x < 2 ^ 7
      revert x; decide
    intro j c hj
    match j, hj with
    | 0, hj => cases hj; exact int64s_storable (by decide)
    | 1, hj =>
      cases hj
      exact .listArray (by decide) (fun x hx => has x (by revert x; decide))
        (fun x hx => has x (by revert x; decide)) (int64s_storable (by decide))
    | j + 2, hj => simp at hj
  | j + 2, hj => simp at hj

theorem mixed_ordinary : mixed.Ordinary := by
  simp [mixed, Ordinary, OrdinaryAll, bufInts, len]

example : ∃ form container' c', toBuffers wide mixed [] = ok (form, 3, container') ∧
    fromBuffers noFloats defaultNaming.key_format form 3 container' 0 = ok c' ∧
    CopyOf mixed c' := by
  obtain ⟨form, cont', h1, _, h2⟩ := C36_round_trip_partial (w := wide) C36_default_names
    (c := mixed) rfl mixed_storable []
  obtain ⟨c', h3, h4⟩ := h2 (C36_ordinary rfl mixed_ordinary)
  exact ⟨form, cont', c', h1, h3, h4⟩

/-- Two partitions. -/
example : ∃ form container' parts', toBuffersParts wide [bufInts [1, 2], bufInts [3]] []
      = ok (form, [2, 1], container') ∧
    fromBuffersParts noFloats defaultNaming.key_format form [2, 1] container' 0
      = ok (parts', [2, 3]) := ⟨_, _, _, rfl, rfl⟩

/-! ### Where the code does not keep the promise -/

/-- The fields of a record come back in the order of their names. -/
theorem C36_field_order_violated :
    ∃ form container' keys cs, toBuffers wide mixed [] = ok (form, 3, container') ∧
      fromBuffers noFloats defaultNaming.key_format form 3 container' 0
        = ok (.record {} (some keys) cs 3) ∧ keys = ["x", "y"] ∧
      mixed.params = {} ∧ ∃ cs', mixed = .record {} (some ["y", "x"]) cs' 3 :=
  ⟨_, _, _, _, rfl, rfl, rfl, rfl, _, rfl⟩

/-- A valid array of no items, whose (equal) offsets are beyond its content, cannot be put
together. -/
theorem C36_offsets_violated :
    let c := Content.listOffset {} [3, 3] (.empty {})
    c.validity = ok () ∧ Storable wide.fl wide.kind 0 c ∧ c.toList = ok [.list []] ∧
    ∃ form container', toBuffers wide c [] = ok (form, 1, container') ∧
      fromBuffers noFloats defaultNaming.key_format form 1 container' 0
        = err "EmptyArray found in node with non-zero expected length" := by
  refine ⟨rfl, ?_, rfl, _, _, rfl, rfl⟩
  refine .listOffset (by decide) (fun x hx => ?_) .empty
  show -2 ^ 63 ≤ x ∧ x < 2 ^ 63
  revert x; decide

/-- A valid array in which only one of two masked items is used cannot be put together, because
the masked content (here a record without fields) is read with the number of items used and the mask
with its own length. -/
theorem C36_mask_violated :
    let c := Content.listOffset {} [0, 1] (.byteMasked {} [0, 0] false (.record {} (some []) [] 2))
    c.validity = ok () ∧ Storable wide.fl wide.kind 0 c ∧ c.toList = ok [.list [.record []]] ∧
    ∃ form container', toBuffers wide c [] = ok (form, 1, container') ∧
      fromBuffers noFloats defaultNaming.key_format form 1 container' 0
        = err "ByteMaskedArray content must not be shorter than its mask" := by
  refine ⟨rfl, ?_, rfl, _, _, rfl, rfl⟩
  refine .listOffset (by decide) (fun x hx => ?_) (.byteMasked (fun x hx => ?_)
    (.record (fields := []) .nil rfl rfl (by simp)))
  · show -2 ^ 63 ≤ x ∧ x < 2 ^ 63
    revert x; decide
  · show -2 ^ 7 ≤ x ∧ x < 2 ^ 7
    revert x; decide

/-- A `BitMaskedArray` in a field of a record comes back as a `ByteMaskedArray`. -/
theorem C36_bitmask_violated :
    let c := Content.record {} (some ["x"]) [.bitMasked {} [5] true 3 true (bufInts [1, 2, 3])] 3
    c.validity = ok () ∧
    ∃ form container', toBuffers wide c [] = ok (form, 3, container') ∧
      fromBuffers noFloats defaultNaming.key_format form 3 container' 0
        = ok (.record {} (some ["x"]) [.byteMasked {} [1, 0, 1] true (bufInts [1, 2, 3])] 3) :=
  ⟨rfl, _, _, rfl, rfl⟩

/-- Of two fields with the same name one is lost. -/
theorem C36_duplicate_violated :
    let c := Content.record {} (some ["x", "x"]) [bufInts [1], bufInts [2]] 1
    c.validity = ok () ∧
    ∃ form container', toBuffers wide c [] = ok (form, 1, container') ∧
      fromBuffers noFloats defaultNaming.key_format form 1 container' 0
        = ok (.record {} (some ["x"]) [bufInts [1]] 1) :=
  ⟨rfl, _, _, rfl, rfl⟩

end Awk.Props
