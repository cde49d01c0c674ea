import Verif.Lemmas.Combinations
import Verif.Props.List
/-
Property theorems C24: `combinations`.
-/

namespace Awk.Props
open R Spec Content

/-- **C24.** What `choose` enumerates: every pick of `n` positions exactly once, in lexicographic
order. The positions of a pick strictly increase or, with replacement, do not decrease. -/
theorem C24_choose_spec (repl : Bool) (n size : Nat) :
    (choose repl n (List.range size)).Pairwise (List.Lex (· < ·)) ∧
    (choose repl n (List.range size)).Nodup ∧
    ∀ t, t ∈ choose repl n (List.range size) ↔ IsPick repl n size t := by
  have hs := choose_sorted (repl := repl) (n := n) (List.pairwise_lt_range (n := size))
  refine ⟨hs, hs.imp ?_, fun t => ?_⟩
  · intro a b hab he
    subst he
    exact lex_irrefl _ hab
  · rw [mem_choose List.pairwise_lt_range]
    simp only [List.mem_range, IsPick]

/-- **C24.** The picks of a list are its items at the picked positions. -/
theorem C24_choose_items (repl : Bool) (n : Nat) (xs : List α) (d : α) :
    choose repl n xs
      = (choose repl n (List.range xs.length)).map (List.map (fun i => xs[i]?.getD d)) := by
  rw [← choose_map]
  congr 1
  apply List.ext_getElem
  · simp
  · intro i h1 h2
    simp [h1]

example : choose false 2 ["a", "b", "c"] = [["a", "b"], ["a", "c"], ["b", "c"]] := by simp [choose]
example : choose true 2 [1, 2] = [[1, 1], [1, 2], [2, 2]] := by simp [choose]
example : choose false 3 [1, 2] = [] := by simp [choose]

/-- **C24.** The size that the kernels compute beforehand is the number of picks that are
written. -/
theorem C24_count (repl : Bool) (n size : Nat) (hn : 1 ≤ n) :
    combinations_count n repl size = ok ((choose repl n (List.range size)).length : Int) := by
  rw [combinations_count_ok hn, choose_length, List.length_range]

/-- **C24.** The filling kernel writes exactly the picks of every list, one buffer for every slot of
a pick, and never outside buffers of the size computed beforehand, whatever was in the buffers. -/
theorem C24_kernel (repl : Bool) (n : Nat) (hn : 1 ≤ n) (starts stops : List Int)
    (toindex fromindex : List Int) (ht : toindex.length = n) (hf : fromindex.length = n)
    (hl : starts.length ≤ stops.length) (hp : ∀ i (h : i < starts.length), starts[i] ≤ stops[i]) :
    ∃ total offsets,
      ListArray_combinations_length (alloc (starts.length + 1)) n repl starts stops starts.length
        = ok (total, offsets) ∧
      ListArray_combinations (List.replicate n (alloc total)) toindex fromindex n repl starts stops
        starts.length
        = ok ((List.range n).map (fun k => (((List.range starts.length).map (fun (i : Nat) =>
            choose repl n ((List.range ((stops[i]?.getD 0) - (starts[i]?.getD 0)).toNat).map
              (fun (d : Nat) => (starts[i]?.getD 0) + (d : Int))))).flatten).map (fun t => t[k]?.getD 0))) := by
  have h1 := ListArray_combinations_length_ok (repl := repl) hn (Nat.le_refl starts.length) hl hp
  refine ⟨_, _, by rw [← h1]; push_cast; rfl, ?_⟩
  unfold ListArray_combinations
  exact combinations_kernel_ok (st := fun i => starts[i]?.getD 0) (sp := fun i => stops[i]?.getD 0)
    hn (fun i hi => by rw [rd_nat_ok hi]; simp [hi])
    (fun i hi => by rw [rd_nat_ok (by omega)]; simp [show i < stops.length by omega])
    (by omega) (by omega) (by
      unfold allPicks
      rw [flatten_map_length]
      exact sumTo_congr (fun i _ => by rw [choose_length, ints_length]; rfl))

example : ListArray_combinations [[9, 9], [9, 9]] [5, 5] [7, 7] 2 false [3, 0] [5, 2] 2
    = ok [[3, 0], [4, 1]] := by rfl

/-- **C24 (partial).** `combinations(array, n, axis)` at any positive axis replaces every list at that
depth by the list of its picks, as tuples or records, under records, unions, options and indexes.
Missing: regular lists shorter than `n` (`C24_regular_violated`) and negative axes. -/
theorem C24_combinations_partial (c : Content) (h : c.validity = ok ()) (n : Nat) (hn : 1 ≤ n)
    (repl : Bool) (keys : Option (List String)) (hk : ∀ ks, keys = some ks → ks.length = n)
    (p : Params) (a : Nat) (ha : 1 ≤ a) (hx : HasAxis true true a c) (hs : ListsAt NotString a c)
    (hw : ListsAt (Wide repl n) a c) (vs : List Val) (hv : c.toList = ok vs) :
    ∃ d, c.combinations n repl keys p a = ok d ∧
      d.toList = ok (vs.map (Val.mapAxis false (combine repl n keys) a)) := by
  have hg := good_of_validity h
  obtain ⟨hsat, ht⟩ := combinationsF_ok (repl := repl) keys p hn hg (Nat.le_refl _) ha hw
  obtain ⟨d, hd⟩ := ht ⟨hx, hs⟩
  rw [hd, sat_ok] at hsat
  refine ⟨d, ?_, toList_maps hg hsat hv⟩
  unfold Content.combinations
  rw [if_neg (by cases keys <;> simp; exact (hk _ rfl).symm), if_neg (by omega), if_neg (by omega), hd]

/-- **C24.** At axis 0 the picks are those of the elements of the array itself, for every valid
array. -/
theorem C24_combinations_axis0 (c : Content) (h : c.validity = ok ()) (n : Nat) (hn : 1 ≤ n)
    (repl : Bool) (keys : Option (List String)) (hk : ∀ ks, keys = some ks → ks.length = n)
    (p : Params) (vs : List Val) (hv : c.toList = ok vs) :
    ∃ d, c.combinations n repl keys p 0 = ok d ∧
      d.toList = ok ((choose repl n vs).map (mkRecord keys)) := by
  have hg := good_of_validity h
  have hv' := hg.toList
  rw [hv', ok.injEq] at hv
  unfold Content.combinations
  rw [if_neg (by cases keys <;> simp; exact (hk _ rfl).symm), if_neg (by omega), if_pos rfl]
  by_cases he : ∃ q, c = .empty q
  · obtain ⟨q, rfl⟩ := he
    refine ⟨.empty {}, rfl, ?_⟩
    obtain ⟨m, rfl⟩ : ∃ m, n = m + 1 := ⟨n - 1, by omega⟩
    have : vs = [] := by rw [← hv]; simp [Content.len]
    rw [this, choose_nil]; rfl
  · obtain ⟨d, h1, h2, h3⟩ := combinationsAxis0_ok (repl := repl) keys p hn hg
    refine ⟨d, ?_, by rw [h2.toList, h3, hv]⟩
    cases c <;> first | exact h1 | exact absurd ⟨_, rfl⟩ he

/-- **C24.** `n` below 1 and a wrong number of names are refused. -/
theorem C24_refused (c : Content) (n : Nat) (repl : Bool) (keys : Option (List String)) (p : Params)
    (a : Nat) (h : n = 0 ∨ ∃ ks, keys = some ks ∧ ks.length ≠ n) :
    IsErr (c.combinations n repl keys p a) := by
  unfold Content.combinations
  rcases h with h | ⟨ks, rfl, hks⟩
  · rw [if_pos (show n < 1 by omega)]
    cases keys with
    | none => exact ⟨_, rfl⟩
    | some ks =>
      by_cases hb : n = ks.length
      · rw [if_neg (by simpa using hb)]; exact ⟨_, rfl⟩
      · rw [if_pos (by simpa using hb)]; exact ⟨_, rfl⟩
  · rw [if_pos (by simpa using hks.symm)]; exact ⟨_, rfl⟩

/-- Optional lists of records, out of order. -/
def exampleCombine : Content :=
  .indexedOption {} [1, -1, 0] (.listArray {} [2, 0] [4, 3]
    (.record {} (some ["x"]) [.numpy {} .int64 ([1, 2, 3, 4].map .int)] 4))

example : exampleCombine.validity = ok () := by rfl
example : (exampleCombine.combinations 2 false none {} 1 >>= Content.toList) = ok [
    .list [.tuple [.record [("x", .atom (.int 1))], .record [("x", .atom (.int 2))]],
      .tuple [.record [("x", .atom (.int 1))], .record [("x", .atom (.int 3))]],
      .tuple [.record [("x", .atom (.int 2))], .record [("x", .atom (.int 3))]]],
    .null,
    .list [.tuple [.record [("x", .atom (.int 3))], .record [("x", .atom (.int 4))]]]] := by rfl
example : HasAxis true true 1 exampleCombine :=
  .thru rfl (by simp only [exampleCombine, children, List.mem_singleton]; rintro d rfl; exact .here rfl)
example : ListsAt NotString 1 exampleCombine :=
  .thru rfl (by
    simp only [exampleCombine, children, List.mem_singleton]; rintro d rfl
    exact .here rfl ⟨by simp [Content.params], by simp [Content.params]⟩)
example : ListsAt (Wide false 2) 1 exampleCombine :=
  .thru rfl (by
    simp only [exampleCombine, children, List.mem_singleton]; rintro d rfl
    exact .here rfl (by intro _ _ _ _ he; cases he))

/-- **C24 fails** for lists of a fixed size between 1 and `n - 1`: instead of an empty list of
combinations the code writes outside its buffers, which have as many entries as a list has items
(RegularArray.cpp:1217-1222). -/
theorem C24_regular_violated :
    (Content.regular {} (.numpy {} .int64 [.int 1, .int 2]) 2 1).validity = ok () ∧
    (Content.regular {} (.numpy {} .int64 [.int 1, .int 2]) 2 1).toList
      = ok [.list [.atom (.int 1), .atom (.int 2)]] ∧
    choose false 3 [Val.atom (.int 1), Val.atom (.int 2)] = [] ∧
    (Content.regular {} (.numpy {} .int64 [.int 1, .int 2]) 2 1).combinations 3 false none {} 1 = ub :=
  ⟨rfl, rfl, by simp [choose], rfl⟩

/-- **C24.** The failure is not an isolated case: it happens for every regular array whose size is
between 1 and `n - 1`. -/
theorem C24_regular_always_violated (c : Content) (size zeros n : Nat) (h0 : 1 ≤ size)
    (h1 : size < n) (p : Params) :
    (Content.regular {} c size zeros).combinations n false none p 1 = ub := by
  have hk : forN n (fun j toindex => wr toindex (j : Int) (0 : Int)) (alloc (size : Int)) = ub := by
    obtain ⟨m, rfl⟩ : ∃ m, n = size + 1 + m := ⟨n - size - 1, by omega⟩
    induction m with
    | zero =>
      rw [Nat.add_zero, forN_succ]
      have := forN_fill0 (n := size) (fun _ => ok (0 : Int)) (alloc (size : Int))
        (by rw [alloc_length])
      simp only [bind_ok, mapN_ok] at this
      rw [this, bind_ok]
      unfold wr
      rw [if_neg (by simp [alloc])]
    | succ m ih =>
      rw [← Nat.add_assoc, forN_succ, ih (by omega)]; rfl
  unfold Content.combinations
  rw [if_neg (by simp), if_neg (by omega), if_neg (by omega)]
  obtain ⟨f, hf⟩ : ∃ f, (Content.regular {} c size zeros).rank = f + 1 :=
    ⟨c.rank + 1, by simp only [Content.rank]⟩
  rw [hf]
  simp only [combinationsF, if_true]
  rw [if_neg (by simp [isStringLike])]
  unfold regularCombinations
  rw [combinations_count_ok (by omega), bind_ok]
  simp only [Bool.false_eq_true, if_false]
  rw [if_pos (by omega)]
  unfold RegularArray_combinations combinations_kernel
  simp only
  rw [hk]
  rfl

end Awk.Props
