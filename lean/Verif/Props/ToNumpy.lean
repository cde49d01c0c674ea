import Verif.Lemmas.ToNumpy
import Verif.Lemmas.ValEq
import Verif.Props.ConcatLists
/-
C81: `to_numpy` gives a NumPy array with the same elements, or raises.
-/

namespace Awk.Props
open R Content

/-- The fields of a record that is made into a structured array. -/
theorem structured_mkRecord {keys : Option (List String)} {vs : List Val}
    (hk : ∀ ks, keys = some ks → ks.length = vs.length) :
    (mkRecord keys vs).structured = .tuple (vs.map Val.stripped) := by
  cases keys with
  | none => rfl
  | some ks =>
    have := hk ks rfl
    simp only [mkRecord, Val.structured]
    congr 1
    apply List.ext_getElem
    · simp [this]
    · intro i h1 h2; simp

/-- **C81 (partial).** If `to_numpy(array)` does not raise, then the NumPy array has the elements of the array:
`to_numpy(array).tolist() == to_list(array)`, except that strings lose zeros at their end
(`C81_zeros_violated`). With `allow_missing=False`, the result is not a masked array, and there are no missing
elements. Missing: unions, arrays of several dimensions, records below the top (see `C81_records_partial`),
missing lists, and arrays with empty lists (`C81_empty_violated`). -/
theorem C81_to_numpy_partial (c : Content) (hv : c.validity = ok ()) (hn : NumpyLike true c) (am : Bool)
    (vs : List Val) (hl : c.toList = ok vs) (hempty : ∀ v ∈ vs, ¬ Val.Inside (.list []) v)
    (a : NpArray) (h : c.toNumpy am = ok a) :
    a.toList = ok (vs.map Val.stripped) ∧
      (am = false → a.mask = none ∧ ∀ v ∈ vs, ¬ Val.Inside .null v) := by
  have hg := good_of_validity hv
  obtain ⟨head, tail, xs, hc⟩ := NpArray.toNumpyF_sound c.rank (Nat.le_refl _) hg hn h
  rw [hg.toList, ok.injEq] at hl
  subst hl
  have hmem : ∀ i, i < c.len → c.valD i ∈ (List.range c.len).map c.valD := fun i hi =>
    List.mem_map_of_mem (by simpa using hi)
  refine ⟨?_, fun ha => ⟨(hc.plain ha).1, fun v hv => ?_⟩⟩
  · unfold NpArray.toList
    rw [hc.shape]
    simp only
    rw [hc.cells, bind_ok]
    rcases hc.vals with ⟨h1, h2⟩ | ⟨h1, h2, h3⟩
    · rw [h2, List.map_map]; rfl
    · have h0 : c.len = 0 := by
        by_contra hne
        exact hempty _ (hmem 0 (by omega)) (h3 0 (by omega))
      rw [h2, h0]
      cases tail with
      | nil => exact absurd rfl h1
      | cons => simp [NpArray.rows]
  · obtain ⟨i, hi, rfl⟩ := List.mem_map.mp hv
    exact (hc.plain ha).2 i (by simpa using hi)

/-- **C81 (partial).** A rectangular array, in which all lists of one depth have the same length, can be
converted; with `allow_missing=False`, if nothing is missing. Missing: fixed-size lists
(`C81_remainder_violated`), unions and records. -/
theorem C81_accepts_partial (c : Content) (hv : c.validity = ok ()) (hn : NumpyLike true c)
    (hf : AllNodes NotFixed c) (am : Bool) (vs : List Val) (hl : c.toList = ok vs) (dims : List Nat)
    (hd : ∀ v ∈ vs, Val.Dims dims v) (hm : am = false → ∀ v ∈ vs, ¬ Val.Inside .null v) :
    IsOk (c.toNumpy am) := by
  have hg := good_of_validity hv
  rw [hg.toList, ok.injEq] at hl
  subst hl
  have hmem : ∀ i, i < c.len → c.valD i ∈ (List.range c.len).map c.valD := fun i hi =>
    List.mem_map_of_mem (by simpa using hi)
  exact NpArray.toNumpyF_accepts c.rank (Nat.le_refl _) hg hn hf (fun i hi => hd _ (hmem i hi))
    (fun ha i hi => hm ha _ (hmem i hi))

/-- **C81 (partial).** With `allow_missing=False`, an array of records becomes a structured array of the same
tuples, if it does not raise. Missing: `allow_missing=True` (`C81_masked_record_violated`) and fields that are
longer than the record array (`C81_untrimmed_violated`). -/
theorem C81_records_partial (p : Params) (keys : Option (List String)) (cs : List Content) (n : Nat)
    (hv : (record p keys cs n).validity = ok ()) (hne : cs ≠ []) (hk : ∀ ks, keys = some ks → ks.length = cs.length)
    (hp : notText (record p keys cs n)) (hn : ∀ d ∈ cs, NumpyLike true d ∧ d.len = n) (vs : List Val)
    (hl : (record p keys cs n).toList = ok vs) (a : NpArray) (h : (record p keys cs n).toNumpy false = ok a) :
    a.toList = ok (vs.map Val.structured) := by
  have hg := good_of_validity hv
  unfold toNumpy at h
  rw [show (record p keys cs n).rank = rankAll cs + 1 by simp [rank], toNumpyF,
    if_neg (by rintro (h | h); exact hp.2 h; exact hp.1 h)] at h
  rw [if_neg hne] at h
  obtain ⟨as, h1, h⟩ := bind_eq_ok.mp h
  split at h
  · have hshape : ∀ x ∈ as, x.shape.length = 1 := by
      intro x hx
      by_contra hc
      unfold npStruct at h
      rw [if_pos (List.any_eq_true.mpr ⟨x, hx, by simpa using hc⟩)] at h
      simp at h
    have hcols : List.Forall₂ (NpArray.Column n) cs as := by
      have hall : ∀ (cs' : List Content) (as' : List NpArray), (∀ d ∈ cs', d ∈ cs) → (∀ x ∈ as', x ∈ as) →
          List.Forall₂ (fun d x => d.toNumpyF (rankAll cs) false = ok x) cs' as' →
          List.Forall₂ (NpArray.Column n) cs' as' := by
        intro cs' as' hc ha hf
        induction hf with
        | nil => exact .nil
        | @cons d x cs' as' h2 _ ih =>
          refine .cons ?_ (ih (fun e he => hc e (.tail _ he)) (fun e he => ha e (.tail _ he)))
          have hd := hc d (.head _)
          obtain ⟨_, _, _, hco⟩ := NpArray.toNumpyF_sound (rankAll cs) (rank_le_rankAll hd)
            ((good_record.mp hg).2 d hd) (hn d hd).1 h2
          have := hco.column (hshape x (ha x (.head _)))
          rwa [(hn d hd).2] at this
      exact hall cs as (fun _ h => h) (fun _ h => h) (mapR_forall₂.mp h1)
    rw [NpArray.npStruct_ok hne hcols, ok.injEq] at h
    subst h
    rw [hg.toList, ok.injEq] at hl
    subst hl
    have := NpArray.mapR_cells ((List.range n).map (fun i => Val.tuple (cs.map (fun d => (d.valD i).stripped))))
    simp only [NpArray.toList, NpArray.maskArray, Option.getD_none]
    rw [List.map_map] at this
    simp only [List.length_map, List.length_range] at this ⊢
    rw [show (fun i => some (Val.tuple (cs.map (fun d => (d.valD i).stripped))))
      = some ∘ (fun i => Val.tuple (cs.map (fun d => (d.valD i).stripped))) from rfl, this, bind_ok]
    simp only [NpArray.rows, List.map_map]
    congr 1
    apply List.map_congr_left
    intro i hi
    simp only [Function.comp]
    rw [valD_record hg (by simpa [len] using hi), structured_mkRecord (by simpa using hk), List.map_map]
    rfl
  · simp at h

/-- `[[1, None], [3, 4]]` with lists of variable length. -/
def rectangle : Content :=
  .listOffset {} [0, 2, 4] (.byteMasked {} [0, 1, 0, 0] false
    (.numpy {} .int64 [.int 1, .int 2, .int 3, .int 4]))

theorem rectangle_like : NumpyLike true rectangle := by
  refine .list rfl ⟨by decide, by decide⟩ ?_ ?_
  · rintro p offsets d ⟨⟩
    decide
  · intro d hd
    obtain rfl : d = _ := by simpa [rectangle, children] using hd
    refine .option rfl ⟨by decide, by decide⟩ ?_
    intro d hd
    obtain rfl : d = _ := by simpa [children] using hd
    exact .numpy ⟨by decide, by decide⟩

example : ∃ a, rectangle.toNumpy true = ok a ∧ a.shape = [2, 2] ∧
    a.toList = ok [.list [.atom (.int 1), .null], .list [.atom (.int 3), .atom (.int 4)]] :=
  ⟨_, rfl, rfl, rfl⟩

example : (rectangle.toNumpy false).IsErr := ⟨_, rfl⟩

/-- The hypotheses of `C81_to_numpy_partial` and `C81_accepts_partial` can be met. -/
example : rectangle.validity = ok () ∧ NumpyLike true rectangle ∧ AllNodes NotFixed rectangle ∧
    rectangle.toList = ok [.list [.atom (.int 1), .null], .list [.atom (.int 3), .atom (.int 4)]] ∧
    Val.Dims [2] (.list [.atom (.int 1), .null]) ∧ ¬ Val.Inside (.list []) (.list [.atom (.int 1), .null]) := by
  refine ⟨rfl, rectangle_like, ?_, rfl, .list rfl ?_, ?_⟩
  · exact .mk (by rintro _ _ _ _ ⟨⟩) (by
      intro d hd
      obtain rfl : d = _ := by simpa [rectangle, children] using hd
      exact .mk (by rintro _ _ _ _ ⟨⟩) (by
        intro d hd
        obtain rfl : d = _ := by simpa [children] using hd
        exact .mk (by rintro _ _ _ _ ⟨⟩) (by simp [children])))
  · intro v hv
    simp only [List.mem_cons, List.not_mem_nil, or_false] at hv
    rcases hv with rfl | rfl <;> exact .item (by simp)
  · rintro (_ | ⟨hv, hi⟩)
    simp only [List.mem_cons, List.not_mem_nil, or_false] at hv
    rcases hv with rfl | rfl <;> cases hi

/-- Lists of different lengths raise. -/
example : ((Content.listOffset {} [0, 2, 3] (.numpy {} .int64 [.int 1, .int 2, .int 3])).toNumpy true).IsErr :=
  ⟨_, rfl⟩

/-- **C81 fails** for arrays of empty lists: the result has no rows (convert.py:328-329). -/
theorem C81_empty_violated :
    let c := Content.listOffset {} [0, 0, 0, 0] (.numpy {} .int64 [])
    c.validity = ok () ∧ c.toList = ok [.list [], .list [], .list []] ∧
    ∃ a, c.toNumpy true = ok a ∧ a.shape = [0, 0] ∧ a.toList = ok [] :=
  ⟨rfl, rfl, _, rfl, rfl, rfl⟩

/-- **C81 fails** for strings that end with a zero. -/
theorem C81_zeros_violated :
    let c := Content.listOffset { arr := .string } [0, 2, 3]
      (.numpy { arr := .char } .uint8 [.int 97, .int 0, .int 98])
    c.validity = ok () ∧ c.toList = ok [.str [.atom (.int 97), .atom (.int 0)], .str [.atom (.int 98)]] ∧
    ∃ a, c.toNumpy true = ok a ∧ a.toList = ok [.str [.atom (.int 97)], .str [.atom (.int 98)]] :=
  ⟨rfl, rfl, _, rfl, rfl⟩

/-- **C81 fails** for a rectangular array of fixed-size lists, if the content has another element that does not
belong to a list: the content is converted before it is cut (convert.py:326). -/
theorem C81_remainder_violated :
    let c := Content.regular {} (.listOffset {} [0, 1, 2, 4] (.numpy {} .int64 [.int 1, .int 2, .int 3, .int 4]))
      2 0
    c.validity = ok () ∧ c.toList = ok [.list [.list [.atom (.int 1)], .list [.atom (.int 2)]]] ∧
    (c.toNumpy true).IsErr :=
  ⟨rfl, rfl, _, rfl⟩

/-- **C81 fails** for records with missing fields: the mask is dropped, and the missing values are read from
memory that has not been initialised (convert.py:349-354). -/
theorem C81_masked_record_violated :
    let c := Content.record {} (some ["x"]) [.byteMasked {} [0, 1] false (.numpy {} .int64 [.int 1, .int 2])] 2
    c.validity = ok () ∧ c.toList = ok [.record [("x", .atom (.int 1))], .record [("x", .null)]] ∧
    ∃ a, c.toNumpy true = ok a ∧ a.mask = none ∧ a.toList = ub :=
  ⟨rfl, rfl, _, rfl, rfl, rfl⟩

/-- **C81 fails** for a record array whose fields are longer than it: the result has their length
(convert.py:340-352). -/
theorem C81_untrimmed_violated :
    let c := Content.record {} (some ["x"]) [.numpy {} .int64 [.int 1, .int 2, .int 3]] 2
    c.validity = ok () ∧ c.toList = ok [.record [("x", .atom (.int 1))], .record [("x", .atom (.int 2))]] ∧
    ∃ a, c.toNumpy true = ok a ∧
      a.toList = ok [.tuple [.atom (.int 1)], .tuple [.atom (.int 2)], .tuple [.atom (.int 3)]] :=
  ⟨rfl, rfl, _, rfl, rfl⟩

/-- **C81 fails** for missing lists: they become lists of missing numbers. -/
theorem C81_missing_list_violated :
    let c := Content.indexedOption {} [0, -1] (.regular {} (.numpy {} .int64 [.int 1, .int 2]) 2 0)
    c.validity = ok () ∧ c.toList = ok [.list [.atom (.int 1), .atom (.int 2)], .null] ∧
    ∃ a, c.toNumpy true = ok a ∧
      a.toList = ok [.list [.atom (.int 1), .atom (.int 2)], .list [.null, .null]] :=
  ⟨rfl, rfl, _, rfl, rfl⟩

/-- The hypotheses of `C81_records_partial` can be met. -/
example :
    let c := Content.record {} (some ["x", "y"]) [.numpy {} .int64 [.int 1, .int 2],
      .listOffset { arr := .string } [0, 1, 1] (.numpy { arr := .char } .uint8 [.int 97])] 2
    c.validity = ok () ∧ ∃ a, c.toNumpy false = ok a ∧
      a.toList = ok [.tuple [.atom (.int 1), .str [.atom (.int 97)]], .tuple [.atom (.int 2), .str []]] :=
  ⟨rfl, _, rfl, rfl⟩

end Awk.Props
