import Verif.Lemmas.Regular
import Verif.Lemmas.Pad
import Verif.Props.Option
/-
Property theorems C19 to C22 and C48: `flatten`, `num`, the three list encodings,
`local_index` and `pad_none`.
-/

namespace Awk
open R

namespace Content

theorem seg_concat {d : Content} {f : Nat → Nat} (n : Nat) :
    (List.range (sumTo f n)).map d.valD
      = ((List.range n).map (fun i => d.seg (sumTo f i) (f i))).flatten := by
  induction n with
  | zero => rfl
  | succ n ih =>
    rw [sumTo_succ, List.range_add, List.map_append, ih, List.range_succ]
    simp [seg]

theorem listLike_val {c : Content} (h : c.Good) (hl : ListLike c) :
    ∀ i, i < c.len → c.valD i = .null ∨ (c.valD i).isList = true := by
  induction hl with
  | @list c hl =>
    intro i hi
    right
    cases c <;> simp only [isListNode, Bool.false_eq_true] at hl
    case regular p c size zeros => rw [valD_regular (good_regular.mp h) hi]; simp
    case listArray p starts stops c =>
      have := (good_listArray.mp h).1
      simp only [len] at hi
      rw [valD_listArray h hi (by omega)]; simp
    case listOffset p offsets c =>
      simp only [len] at hi
      rw [valD_listOffset h (by omega)]; simp
  | @thru c ho _ ih =>
    intro i hi
    obtain ⟨g1, g2⟩ := val_inner_pick h ho hi
    rw [g1]
    cases hp : c.pick i with
    | none => left; rfl
    | some k =>
      have hmem : c.inner ∈ c.children := by
        cases c <;> simp only [isOptionOrIndexed, Bool.false_eq_true] at ho <;> simp [inner, children]
      exact ih _ hmem (inner_good h) k (g2 k hp)
  | @union p tags index cs _ _ ih =>
    intro i hi
    obtain ⟨h1, h2, h3⟩ := good_union.mp h
    simp only [len] at hi
    obtain ⟨e1, e2, e3, e4⟩ := h3 i hi
    rw [valD_union h hi (by omega) e2]
    exact ih _ (List.getElem_mem _) (h2 _ (List.getElem_mem _)) _ (by omega)
  | empty => intro i hi; simp [len] at hi

theorem toList_maps {c c' : Content} {F : Val → Val} (h : c.Good) (hm : MapsG True c c' F)
    {vs : List Val} (hv : c.toList = ok vs) : c'.toList = ok (vs.map F) := by
  rw [h.toList] at hv
  simp only [ok.injEq] at hv
  rw [hm.good.toList, hm.exact trivial, ← hv, List.map_map]
  congr 1
  apply List.map_congr_left
  intro i hi
  simp only [List.mem_range] at hi
  exact hm.val i hi

theorem offsetsInRange_of_nonempty {c : Content} (h : c.Good) {i : Nat} (hi : i < c.len)
    (hne : c.lens i ≠ 0) : OffsetsInRange c := by
  cases c <;> try exact trivial
  case listOffset p offsets c =>
    obtain ⟨hl, hc, hp⟩ := good_listOffset.mp h
    simp only [len] at hi
    have h1 : 0 ≤ offsets[i]'(by omega) ∧ offsets[i + 1]'(by omega) ≤ c.len := by
      rcases hp i (by omega) with h0 | h0
      · exfalso
        apply hne
        rw [lens_eq (valD_listOffset h (by omega)), seg_length]; omega
      · omega
    have hi2 := (hp i (by omega)).le
    have up : ∀ k, (hk : i + 1 + k < offsets.length) →
        0 ≤ offsets[i + 1 + k] ∧ offsets[i + 1 + k] ≤ c.len := by
      intro k
      induction k with
      | zero => intro hk; simp only [Nat.add_zero]; omega
      | succ k ih =>
        intro hk
        have := ih (by omega)
        rcases hp (i + 1 + k) hk with h0 | h0
        · simp only [← Nat.add_assoc]; omega
        · simp only [← Nat.add_assoc]; omega
    have down : ∀ k (hk : k ≤ i), 0 ≤ offsets[i - k]'(by omega) ∧ offsets[i - k]'(by omega) ≤ c.len := by
      intro k
      induction k with
      | zero => intro hk; simp only [Nat.sub_zero]; omega
      | succ k ih =>
        intro hk
        have h2 := ih (by omega)
        rcases hp (i - (k + 1)) (by omega) with h0 | h0
        · simp only [show i - (k + 1) + 1 = i - k by omega] at h0; omega
        · simp only [show i - (k + 1) + 1 = i - k by omega] at h0; omega
    intro o ho
    obtain ⟨j, hj, rfl⟩ := List.mem_iff_getElem.mp ho
    by_cases hji : j ≤ i
    · have := down (i - j) (by omega)
      simp only [show i - (i - j) = j by omega] at this
      exact this
    · have := up (j - (i + 1)) (by omega)
      simp only [show i + 1 + (j - (i + 1)) = j by omega] at this
      exact this

end Content

namespace Props
open Content Spec

/-- **C19.** `flatten(array, axis=1)` of every valid array of lists (any list class, any encoding
of missing lists, indexed arrays and unions of such arrays) succeeds and is the concatenation of
the inner lists. A missing list has no items, like an empty one. -/
theorem C19_flatten (c : Content) (h : c.validity = ok ()) (hl : ListLike c) (vs : List Val)
    (hv : c.toList = ok vs) :
    (∀ v ∈ vs, v = .null ∨ v.isList = true) ∧
    ∃ d, c.flatten = ok d ∧ d.toList = ok ((vs.map Val.items).flatten) := by
  have hg := good_of_validity h
  have hv' := hv
  rw [hg.toList] at hv'
  simp only [ok.injEq] at hv'
  refine ⟨?_, ?_⟩
  · intro v hv
    rw [← hv'] at hv
    simp only [List.mem_map, List.mem_range] at hv
    obtain ⟨i, hi, rfl⟩ := hv
    exact listLike_val hg hl i hi
  · obtain ⟨hs, ht⟩ := flattenF_ok hg (Nat.le_refl _)
    obtain ⟨oc, hoc⟩ := ht hl
    rw [hoc, sat_ok] at hs
    refine ⟨oc.2, by unfold Content.flatten; rw [hoc, bind_ok], ?_⟩
    rw [hs.good.toList, hs.len_eq, seg_concat, ← hv', List.map_map]
    congr 2
    apply List.map_congr_left
    intro i hi
    simp only [List.mem_range] at hi
    rw [hs.vals i hi]; rfl

theorem num_maps {c : Content} {a : Nat} (hg : c.Good) (ha : 1 ≤ a) (hx : HasAxis false true a c)
    (hz : a = 1 ∨ AllNodes ZeroBasedNode c) :
    ∃ d, c.num a = ok (.array d) ∧ MapsG True c d (Val.mapAxis false Val.count a) := by
  obtain ⟨hs, ht⟩ := numF_ok hg (Nat.le_refl _) ha hz
  obtain ⟨d, hd⟩ := ht hx
  rw [hd, sat_ok] at hs
  exact ⟨d, by unfold Content.num; rw [if_neg (by omega), hd, bind_ok], hs⟩

theorem mapAxis_one_list {keep : Bool} {g : Val → Val} {v : Val}
    (h : v = .null ∨ v.isList = true) :
    Val.mapAxis keep g 1 v = if v.isNull then .null else g v := by
  rcases h with rfl | h
  · simp [Val.mapAxis, Val.isNull]
  · cases v <;> simp [Val.isList] at h <;> simp [Val.mapAxis, Val.isNull]

/-- **C19.** `num(array, axis=1)` gives the length of every inner list, and `None` for a missing
one. -/
theorem C19_num (c : Content) (h : c.validity = ok ()) (hl : ListLike c)
    (hx : HasAxis false true 1 c) (vs : List Val) (hv : c.toList = ok vs) :
    ∃ d, c.num 1 = ok (.array d) ∧ d.toList = ok (vs.map (fun v =>
      if v.isNull then .null else .atom (.int v.items.length))) := by
  have hg := good_of_validity h
  obtain ⟨d, h1, h2⟩ := num_maps hg (Nat.le_refl _) hx (.inl rfl)
  refine ⟨d, h1, ?_⟩
  rw [toList_maps hg h2 hv]
  congr 1
  apply List.map_congr_left
  intro v hmem
  rw [mapAxis_one_list ((C19_flatten c h hl vs hv).1 v hmem)]
  rfl

/-- **C19.** `num(array, axis=0)` is the length of the array. -/
theorem C19_num_axis0 (c : Content) (vs : List Val) (hv : c.toList = ok vs) :
    c.num 0 = ok (.scalar vs.length) := by
  have := mapN_length hv
  simp [Content.num, this]

/-- Missing lists over a sliced list array with unreachable content. -/
def exampleLists : Content :=
  .indexedOption {} [2, -1, 0, 1, 2] (.listArray {} [3, 7, 0] [5, 7, 3]
    (.numpy {} .int64 ((List.range 6).map (fun (i : Nat) => .int (10 * i)))))

example : exampleLists.validity = ok () := by rfl
example : ListLike exampleLists :=
  .thru rfl (by simp only [exampleLists, children, List.mem_singleton]; rintro d rfl; exact .list rfl)
example : HasAxis false true 1 exampleLists :=
  .thru rfl (by simp only [exampleLists, children, List.mem_singleton]; rintro d rfl; exact .here rfl)
example : exampleLists.toList = ok [.list [.atom (.int 0), .atom (.int 10), .atom (.int 20)], .null,
    .list [.atom (.int 30), .atom (.int 40)], .list [],
    .list [.atom (.int 0), .atom (.int 10), .atom (.int 20)]] := by rfl
example : (exampleLists.flatten >>= Content.toList) = ok ([0, 10, 20, 30, 40, 0, 10, 20].map
    (fun x => .atom (.int x))) := by rfl

/-- **C48.** `num(array, axis)` at any positive axis measures the lists at that depth, under
records, options and indexes, when every offsets buffer of the array begins with zero. -/
theorem C48_num_partial (c : Content) (h : c.validity = ok ()) (a : Nat) (ha : 1 ≤ a)
    (hx : HasAxis false true a c) (hz : AllNodes ZeroBasedNode c) (vs : List Val)
    (hv : c.toList = ok vs) :
    ∃ d, c.num a = ok (.array d) ∧ d.toList = ok (vs.map (Val.mapAxis false Val.count a)) := by
  have hg := good_of_validity h
  obtain ⟨d, h1, h2⟩ := num_maps hg ha hx (.inr hz)
  exact ⟨d, h1, toList_maps hg h2 hv⟩

/-- **C48.** At axis 1 the offsets may begin anywhere. -/
theorem C48_num_axis1 (c : Content) (h : c.validity = ok ()) (hx : HasAxis false true 1 c)
    (vs : List Val) (hv : c.toList = ok vs) :
    ∃ d, c.num 1 = ok (.array d) ∧ d.toList = ok (vs.map (Val.mapAxis false Val.count 1)) := by
  have hg := good_of_validity h
  obtain ⟨d, h1, h2⟩ := num_maps hg (Nat.le_refl _) hx (.inl rfl)
  exact ⟨d, h1, toList_maps hg h2 hv⟩

/-- `[[[1, 2], [3]], [[4, 5, 6]]][1:]`: a slice keeps the content and starts its offsets at 2. -/
def slicedNested : Content :=
  .listOffset {} [2, 3] (.listOffset {} [0, 2, 3, 6]
    (.numpy {} .int64 ([1, 2, 3, 4, 5, 6].map .int)))

/-- The same array before the slice. -/
def unslicedNested : Content :=
  .listOffset {} [0, 2, 3] (.listOffset {} [0, 2, 3, 6]
    (.numpy {} .int64 ([1, 2, 3, 4, 5, 6].map .int)))

example : (unslicedNested.getitemRange 1 2) = ok slicedNested := by rfl
example : unslicedNested.validity = ok () := by rfl
example : HasAxis false true 2 unslicedNested :=
  .inside rfl (Nat.le_refl _) (by
    simp only [unslicedNested, children, List.mem_singleton]; rintro d rfl; exact .here rfl)
example : AllNodes ZeroBasedNode unslicedNested :=
  .mk rfl (by
    simp only [unslicedNested, children, List.mem_singleton]; rintro d rfl
    exact .mk rfl (by
      simp only [children, List.mem_singleton]; rintro d rfl
      exact .mk trivial (by simp [children])))

/-- **C48 fails** for a sliced array at axis 2: the array `[[[4, 5, 6]]]` is reported to have an
inner list of length 2 (ListOffsetArray.cpp:964-975 compacts the offsets but not the content). -/
theorem C48_num_sliced_violated :
    slicedNested.validity = ok () ∧
    slicedNested.toList = ok [.list [.list [.atom (.int 4), .atom (.int 5), .atom (.int 6)]]] ∧
    ∃ d, slicedNested.num 2 = ok (.array d) ∧ d.toList = ok [.list [.atom (.int 2)]] := by
  exact ⟨rfl, rfl, _, rfl, rfl⟩

/-- **C20.** Rewriting any list array with offsets (`toListOffsetArray64(true)`) keeps
`to_list`. -/
theorem C20_to_list_offset (c : Content) (h : c.validity = ok ()) (hl : c.isListNode = true)
    (vs : List Val) (hv : c.toList = ok vs) :
    ∃ p offsets d, c.toListOffset = ok (.listOffset p offsets d) ∧ offsets[0]? = some 0 ∧
      (Content.listOffset p offsets d).toList = ok vs := by
  have hg := good_of_validity h
  obtain ⟨offs, d, h1, h2, h3⟩ := listParts_ok hg hl
  obtain ⟨c', e1, e2, e3, e4⟩ := toListOffset_ok hg hl
  have he : c' = .listOffset c.params offs d := by
    unfold Content.toListOffset at e1
    rw [h1, bind_ok] at e1
    simpa using e1.symm
  subst he
  refine ⟨_, _, _, e1, ?_, ?_⟩
  · rw [h2.offs_eq, List.getElem?_eq_getElem (by simp), offsTo_getElem]; rfl
  · rw [← hv, hg.toList, e2.toList, e3]
    congr 1
    apply List.map_congr_left
    intro i hi
    simp only [List.mem_range] at hi
    exact e4 i hi

/-- The guard of C20: the offsets lie within the content (`validity` does not require it of an
array whose lists are all empty), or some list is not empty. -/
def RegularGuard (c : Content) (vs : List Val) : Prop :=
  (∀ p offsets d, c = .listOffset p offsets d → ∀ o ∈ offsets, 0 ≤ o ∧ o ≤ d.len) ∨
  ∃ v ∈ vs, v.items ≠ []

theorem regularGuard {c : Content} (hg : c.Good) {vs : List Val} (hv : c.toList = ok vs)
    (hr : RegularGuard c vs) : OffsetsInRange c := by
  rcases hr with h | ⟨v, hmem, hne⟩
  · cases c <;> try exact trivial
    exact h _ _ _ rfl
  · rw [hg.toList] at hv
    simp only [ok.injEq] at hv
    rw [← hv] at hmem
    simp only [List.mem_map, List.mem_range] at hmem
    obtain ⟨i, hi, rfl⟩ := hmem
    refine offsetsInRange_of_nonempty hg hi ?_
    simp only [lens]
    exact fun h0 => hne (List.length_eq_zero_iff.mp h0)

/-- **C20.** `to_regular` succeeds when all inner lists have the same length, and keeps
`to_list`. -/
theorem C20_to_regular_partial (c : Content) (h : c.validity = ok ()) (hl : c.isListNode = true)
    (vs : List Val) (hv : c.toList = ok vs) (hr : RegularGuard c vs)
    (hsame : ∀ v ∈ vs, ∀ w ∈ vs, v.items.length = w.items.length) :
    ∃ p d size zeros, c.toRegular = ok (.regular p d size zeros) ∧
      (Content.regular p d size zeros).toList = ok vs := by
  have hg := good_of_validity h
  have hv' := hv
  rw [hg.toList] at hv'
  simp only [ok.injEq] at hv'
  obtain ⟨c', e1, e2, e3, e4, d, size, zeros, rfl⟩ := (toRegular_ok hg hl (regularGuard hg hv hr)).1 (by
    intro i hi
    simp only [lens]
    exact hsame _ (by rw [← hv']; exact List.mem_map_of_mem (List.mem_range.mpr hi)) _
      (by rw [← hv']; exact List.mem_map_of_mem (List.mem_range.mpr (by omega))))
  refine ⟨_, _, _, _, e1, ?_⟩
  rw [← hv, hg.toList, e2.toList, e3]
  congr 1
  apply List.map_congr_left
  intro i hi
  simp only [List.mem_range] at hi
  exact e4 i hi

/-- **C20.** `to_regular` raises when two inner lists have different lengths. -/
theorem C20_to_regular_raises (c : Content) (h : c.validity = ok ()) (hl : c.isListNode = true)
    (vs : List Val) (hv : c.toList = ok vs)
    (hdiff : ∃ v ∈ vs, ∃ w ∈ vs, v.items.length ≠ w.items.length) :
    c.toRegular.IsErr := by
  have hg := good_of_validity h
  have hv' := hv
  rw [hg.toList] at hv'
  simp only [ok.injEq] at hv'
  obtain ⟨v, hvm, w, hwm, hne⟩ := hdiff
  have hr : RegularGuard c vs := by
    right
    by_cases h0 : v.items = []
    · exact ⟨w, hwm, fun h1 => hne (by rw [h0, h1])⟩
    · exact ⟨v, hvm, h0⟩
  refine (toRegular_ok hg hl (regularGuard hg hv hr)).2 ?_
  rw [← hv'] at hvm hwm
  simp only [List.mem_map, List.mem_range] at hvm hwm
  obtain ⟨i, hi, rfl⟩ := hvm
  obtain ⟨j, hj, rfl⟩ := hwm
  by_cases h0 : c.lens i = c.lens 0
  · exact ⟨j, hj, fun h1 => hne (by simp only [lens] at h0 h1; rw [h0, h1])⟩
  · exact ⟨i, hi, h0⟩

/-- Starts and stops out of order over a content with unreachable items. -/
def exampleSameLength : Content :=
  .listArray {} [4, 0, 2] [6, 2, 4] (.numpy {} .int64 ((List.range 9).map (fun (i : Nat) => .int i)))

example : exampleSameLength.validity = ok () := by rfl
example : exampleSameLength.toList = ok [.list [.atom (.int 4), .atom (.int 5)],
    .list [.atom (.int 0), .atom (.int 1)], .list [.atom (.int 2), .atom (.int 3)]] := by rfl
example : (exampleSameLength.toRegular >>= Content.toList) = exampleSameLength.toList := by rfl
example : exampleSameLength.toRegular = ok (.regular {} (.numpy {} .int64
    ([4, 5, 0, 1, 2, 3].map .int)) 2 3) := by rfl

/-- **C20 fails** for a valid array of empty lists whose offsets lie beyond the content: the
content is cut at the first and last offset before the lengths are looked at
(ListOffsetArray.cpp:369-378). -/
theorem C20_to_regular_violated :
    (Content.listOffset {} [5, 5, 5] (.numpy {} .int64 [.int 7])).validity = ok () ∧
    (Content.listOffset {} [5, 5, 5] (.numpy {} .int64 [.int 7])).toList
      = ok [.list [], .list []] ∧
    ¬ IsOk (Content.listOffset {} [5, 5, 5] (.numpy {} .int64 [.int 7])).toRegular := by
  refine ⟨rfl, rfl, ?_⟩
  rintro ⟨c, hc⟩
  have : (Content.listOffset {} [5, 5, 5] (.numpy {} .int64 [.int 7])).toRegular = ub := by rfl
  rw [this] at hc; cases hc

/-- **C21.** `local_index(array, axis)` at any positive axis replaces every list at that depth by
the positions `0, 1, …` of its items, under records, unions, options and indexes. -/
theorem C21_local_index (c : Content) (h : c.validity = ok ()) (a : Nat) (ha : 1 ≤ a)
    (hx : HasAxis true true a c) (vs : List Val) (hv : c.toList = ok vs) :
    ∃ d, c.localIndex a = ok d ∧ d.toList = ok (vs.map (Val.mapAxis false Val.positions a)) := by
  have hg := good_of_validity h
  obtain ⟨hs, ht⟩ := localindexF_ok hg (Nat.le_refl _) ha
  obtain ⟨d, hd⟩ := ht hx
  rw [hd, sat_ok] at hs
  refine ⟨d, by unfold Content.localIndex; rw [if_neg (by omega), hd], toList_maps hg hs hv⟩

/-- **C21.** At axis 1, element `i` becomes `[0, 1, …, nᵢ - 1]`, and a missing list stays
missing. -/
theorem C21_local_index_axis1 (c : Content) (h : c.validity = ok ()) (hl : ListLike c)
    (hx : HasAxis true true 1 c) (vs : List Val) (hv : c.toList = ok vs) :
    ∃ d, c.localIndex 1 = ok d ∧ d.toList = ok (vs.map (fun v => if v.isNull then .null else
      .list ((List.range v.items.length).map (fun (i : Nat) => .atom (.int i))))) := by
  obtain ⟨d, h1, h2⟩ := C21_local_index c h 1 (Nat.le_refl _) hx vs hv
  refine ⟨d, h1, ?_⟩
  rw [h2]
  congr 1
  apply List.map_congr_left
  intro v hmem
  rw [mapAxis_one_list ((C19_flatten c h hl vs hv).1 v hmem)]
  rfl

/-- **C21.** At axis 0 the array itself is numbered. -/
theorem C21_local_index_axis0 (c : Content) (vs : List Val) (hv : c.toList = ok vs) :
    ∃ d, c.localIndex 0 = ok d ∧
      d.toList = ok ((List.range vs.length).map (fun (i : Nat) => .atom (.int i))) := by
  have hl : vs.length = c.len := mapN_length hv
  refine ⟨intArray ((List.range c.len).map (fun (i : Nat) => (i : Int))), ?_, ?_⟩
  · unfold Content.localIndex localindexAxis0 localindex_kernel
    rw [if_pos rfl, forN_fill_eq (fun (i : Nat) => (i : Int)) (alloc_length _) (fun i hi => rfl),
      bind_ok]
  · rw [(good_intArray _).toList, hl]
    congr 1
    apply List.ext_getElem (by simp)
    intro i g1 g2
    have hi : i < c.len := by simpa using g2
    simp only [List.getElem_map, List.getElem_range]
    rw [valD_intArray (by simpa using hi)]
    simp

/-- A union of lists and optional lists, in records. -/
def exampleUnionLists : Content :=
  .record {} (some ["x"]) [.union {} [0, 1, 1, 0] [0, 1, 0, 1]
    [.regular {} (.numpy {} .int64 ([1, 2, 3, 4, 5, 6].map .int)) 3 2,
     .byteMasked {} [0, 1] true (.listOffset {} [1, 2, 4] (.numpy {} .bool ([true, false, true, true].map .bool)))]] 4

example : exampleUnionLists.validity = ok () := by rfl
example : (exampleUnionLists.localIndex 1 >>= Content.toList) = ok [
    .record [("x", .list [.atom (.int 0), .atom (.int 1), .atom (.int 2)])],
    .record [("x", .list [.atom (.int 0), .atom (.int 1)])],
    .record [("x", .null)],
    .record [("x", .list [.atom (.int 0), .atom (.int 1), .atom (.int 2)])]] := by rfl
example : HasAxis true true 1 exampleUnionLists :=
  .thru rfl (by
    simp only [exampleUnionLists, children, List.mem_singleton]; rintro d rfl
    exact .thru rfl (by
      simp only [children, List.mem_cons, List.not_mem_nil, or_false]
      rintro d (rfl | rfl)
      · exact .here rfl
      · exact .thru rfl (by simp only [children, List.mem_singleton]; rintro d rfl; exact .here rfl)))

theorem toList_maps_trimmed {c c' : Content} {F : Val → Val} (h : c.Good)
    (hm : MapsG (AllNodes TrimmedNode c) c c' F) {vs : List Val} (hv : c.toList = ok vs) :
    ∃ extra, c'.toList = ok (vs.map F ++ extra) ∧ (AllNodes TrimmedNode c → extra = []) := by
  rw [h.toList] at hv
  simp only [ok.injEq] at hv
  have hle := hm.len_le
  refine ⟨((List.range c'.len).drop c.len).map c'.valD, ?_, ?_⟩
  · rw [hm.good.toList, ← hv, List.map_map]
    congr 1
    have : List.range c.len = (List.range c'.len).take c.len := by
      rw [List.take_range, Nat.min_eq_left hle]
    conv_lhs => rw [← List.take_append_drop c.len (List.range c'.len)]
    rw [List.map_append, ← this]
    congr 1
    apply List.map_congr_left
    intro i hi
    simp only [List.mem_range] at hi
    exact hm.val i hi
  · intro ht
    rw [List.drop_eq_nil_of_le (by simp [hm.exact ht])]; rfl

/-- **C22.** `pad_none(array, target, axis, clip=True)` at any positive axis succeeds and turns
every list at that depth into its first `target` items followed by `None` up to `target` items.
Extra elements can follow when a record node is shorter than its fields; without that the result
is exact. -/
theorem C22_pad_clip_partial (c : Content) (h : c.validity = ok ()) (target a : Nat) (ha : 1 ≤ a)
    (hx : HasAxis false false a c) (vs : List Val) (hv : c.toList = ok vs) :
    ∃ d extra, c.padNone target a true = ok d ∧
      d.toList = ok (vs.map (Val.mapAxis true (Val.pad target true) a) ++ extra) ∧
      (AllNodes TrimmedNode c → extra = []) := by
  have hg := good_of_validity h
  have hL := rpadF_ok (t := target) (clip := true) hg (Nat.le_refl _) ha
  obtain ⟨d, hd⟩ := hL.total ⟨.inl rfl, hx⟩
  obtain ⟨extra, h1, h2⟩ := toList_maps_trimmed hg (hL.ok d hd) hv
  exact ⟨d, extra, by unfold Content.padNone; rw [if_neg (by omega), hd], h1, h2⟩

/-- **C22.** `pad_none(array, target, axis)` without clipping: any result shows every list at that
depth followed by `None` up to `target` items. There is a result if the array has no option or
indexed node and no empty ListArray (`ListArray_min_range` reads element 0 of an empty buffer). -/
theorem C22_pad_partial (c : Content) (h : c.validity = ok ()) (target a : Nat) (ha : 1 ≤ a)
    (vs : List Val) (hv : c.toList = ok vs) :
    (∀ d, c.padNone target a false = ok d → ∃ extra,
      d.toList = ok (vs.map (Val.mapAxis true (Val.pad target false) a) ++ extra) ∧
      (AllNodes TrimmedNode c → extra = [])) ∧
    (HasAxis false false a c → AllNodes PlainNode c → IsOk (c.padNone target a false)) := by
  have hg := good_of_validity h
  have hL := rpadF_ok (t := target) (clip := false) hg (Nat.le_refl _) ha
  have he : c.padNone target a false = rpadF target false c.rank a c := by
    unfold Content.padNone; rw [if_neg (by omega)]
  rw [he]
  exact ⟨fun d hd => toList_maps_trimmed hg (hL.ok d hd) hv, fun h1 h2 => hL.total ⟨.inr h2, h1⟩⟩

/-- **C22.** At axis 0 the array itself is padded (and clipped), except that an UnmaskedArray is
not clipped. -/
theorem C22_pad_axis0_partial (c : Content) (h : c.validity = ok ()) (target : Nat) (clip : Bool)
    (hu : clip = false ∨ ∀ p d, c ≠ .unmasked p d) (vs : List Val) (hv : c.toList = ok vs) :
    ∃ d, c.padNone target 0 clip = ok d ∧ d.toList = ok (Val.padList target clip vs) := by
  have hg := good_of_validity h
  obtain ⟨d, h1, h2, h3⟩ := rpadAxis0_ok (t := target) (clip := clip) hg
  refine ⟨d, ?_, ?_⟩
  · unfold Content.padNone
    rw [if_pos rfl]
    split
    · rename_i p d
      rcases hu with rfl | hu
      · exact h1
      · exact absurd rfl (hu _ _)
    · exact h1
  · rw [hg.toList] at hv
    simp only [ok.injEq] at hv
    rw [h2.toList, h3, hv]

example : (exampleLists.padNone 2 1 true >>= Content.toList) = ok [
    .list [.atom (.int 0), .atom (.int 10)], .null, .list [.atom (.int 30), .atom (.int 40)],
    .list [.null, .null], .list [.atom (.int 0), .atom (.int 10)]] := by rfl
example : (exampleLists.padNone 2 1 false >>= Content.toList) = ok [
    .list [.atom (.int 0), .atom (.int 10), .atom (.int 20)], .null,
    .list [.atom (.int 30), .atom (.int 40)], .list [.null, .null],
    .list [.atom (.int 0), .atom (.int 10), .atom (.int 20)]] := by rfl
example : HasAxis false false 1 exampleLists :=
  .thru rfl (by simp only [exampleLists, children, List.mem_singleton]; rintro d rfl; exact .here rfl)
example : AllNodes TrimmedNode exampleLists :=
  .mk trivial (by
    simp only [exampleLists, children, List.mem_singleton]; rintro d rfl
    exact .mk trivial (by
      simp only [children, List.mem_singleton]; rintro d rfl
      exact .mk trivial (by simp [children])))
example : AllNodes PlainNode exampleSameLength :=
  .mk (by simp [exampleSameLength, PlainNode]) (by
    simp only [exampleSameLength, children, List.mem_singleton]; rintro d rfl
    exact .mk trivial (by simp [children]))

/-- **C22 fails** for records shorter than their fields: padding shows an extra row
(RecordArray.cpp:1412-1467 drop the length). -/
theorem C22_pad_record_violated :
    let c := Content.record {} none [.regular {} (.numpy {} .int64 ([1, 2].map .int)) 1 2] 1
    c.validity = ok () ∧ c.toList = ok [.tuple [.list [.atom (.int 1)]]] ∧
    (c.padNone 1 1 true >>= Content.toList)
      = ok [.tuple [.list [.atom (.int 1)]], .tuple [.list [.atom (.int 2)]]] := by
  exact ⟨rfl, rfl, rfl⟩

/-- **C22 fails** for an UnmaskedArray at axis 0: `clip=True` does not clip
(UnmaskedArray.cpp:880-887). -/
theorem C22_pad_unmasked_violated :
    let c := Content.unmasked {} (.numpy {} .int64 ([1, 2].map .int))
    c.validity = ok () ∧ c.toList = ok [.atom (.int 1), .atom (.int 2)] ∧
    (c.padNone 1 0 true >>= Content.toList) = ok [.atom (.int 1), .atom (.int 2)] := by
  exact ⟨rfl, rfl, rfl⟩

/-- **C22 fails** (undefined behaviour) for an empty ListArray, and for an option-type array of
lists that are all missing. -/
theorem C22_pad_empty_violated :
    (Content.listArray {} [] [] (.numpy {} .int64 [])).validity = ok () ∧
    (Content.listArray {} [] [] (.numpy {} .int64 [])).padNone 1 1 false = ub ∧
    (Content.indexedOption {} [-1] (.listArray {} [0] [1] (.numpy {} .int64 [.int 1]))).validity
      = ok () ∧
    (Content.indexedOption {} [-1] (.listArray {} [0] [1] (.numpy {} .int64 [.int 1]))).padNone
      1 1 false = ub := by
  exact ⟨rfl, rfl, rfl, rfl⟩

end Props
end Awk
