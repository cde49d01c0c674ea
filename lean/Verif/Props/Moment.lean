import Verif.Lemmas.MomentLists
import Verif.Props.Complete
/-
C93: moments, means and variances of all numbers of an array, with and without weights.
-/

namespace Awk.Props
open R Content

/-- **C93 (partial).** `moment(x, n)` of a flat array is the mean of the powers of its numbers. Missing: rounding, and an axis. -/
theorem C93_moment_partial (fuel : Nat) (hf : 1 ≤ fuel) (n : Nat) (xs : List Rat) (hx : xs ≠ []) :
    momentReal fuel n none (reals xs) = ok (some ((xs.map (· ^ n)).sum / xs.length)) := by
  rw [momentReal_none hf, divideReal, if_neg (by simpa using hx)]

/-- **C93 (partial).** `moment(x, n)` of an array of lists is the mean of the powers of all its numbers; without numbers it
is NaN. Missing: more deeply nested arrays, rounding, and an axis. -/
theorem C93_moment_lists_partial (fuel : Nat) (hf : 3 ≤ fuel) (n : Nat) (c : Content) (vs : List Val)
    (hv : c.validity = ok ()) (hfl : FlatOrLists c) (hj : ∀ v ∈ vs, ∃ xs, v = .list xs)
    (hb : AllNodes (fun d => d.params.arr = .none ∧ d.params.recName = none) c)
    (hl : c.toList = ok vs) (hne : vs ≠ []) :
    momentReal fuel n none c = ok (if vs.flatMap Val.leaves = [] then none
      else some (((vs.flatMap Val.leaves).map (fun a => a.asRat ^ n)).sum / ((vs.flatMap Val.leaves).length : Rat))) := by
  have hg := good_of_validity hv
  have hvs : vs = (List.range c.len).map c.valD := by
    have := hg.toList
    rw [hl] at this
    simpa using this
  have hn : 0 < c.len := by
    rcases Nat.eq_zero_or_pos c.len with h | h
    · rw [h] at hvs
      exact absurd hvs hne
    · exact h
  have hjag : c.isJagged = true := by
    rcases hfl.cases with h | h
    · exfalso
      cases c <;> simp only [isNumpy, Bool.false_eq_true] at h
      rename_i p dt data
      obtain ⟨xs, hx⟩ := hj ((numpy p dt data).valD 0) (by rw [hvs]; exact List.mem_map.mpr ⟨0, by simpa using hn, rfl⟩)
      simp only [len] at hn
      rw [valD_eq (v := .atom data[0]) (by simp [val, rd, hn])] at hx
      cases hx
    · exact h.1
  have hun : UnnamedIn c := by
    refine ⟨hg, ?_⟩
    have h1 := hfl.nodes
    clear hvs hl hn hjag hg hv hfl
    induction h1 with
    | mk h0 _ ih =>
      refine .mk ⟨h0, ?_⟩ (fun d hd => ih d hd (hb.child hd))
      have := hb.here
      split
      · exact this
      · trivial
  have hbeh : c.hasBehavior = false := by
    have := hb.here
    simp [hasBehavior, this]
  have hnodes : AllNodes TrimNode c ∧ AllNodes FullNode c := by
    cases c <;> simp only [isJagged, Bool.false_eq_true] at hjag <;> rename_i d <;> cases d <;>
      simp only [FlatOrLists] at hfl <;> simp [all_numpy, all_listOffset, all_listArray, TrimNode, FullNode]
  obtain ⟨out, h1, h2, h3, h4, h5⟩ := mapReal_lists (fun a => a ^ n) hf hun hfl hbeh hjag hn
  have hc := C73_count_partial c vs hv hl hnodes.1 hnodes.2
  unfold momentReal sumWeights
  simp only [hc, bind_ok, h1, sumReal_good h2 h3 h4, h5, leavesOf_toList hg hl, divideReal, List.map_map,
    Function.comp_def, Atom.asRat]
  simp only [Nat.cast_eq_zero, List.length_eq_zero_iff]

/-- Lists of numbers, one of them empty, meet the hypotheses. -/
example : momentReal 3 2 none (listOffset {} [0, 2, 2, 3] (intArray [1, 2, 4])) = ok (some 7) := by
  rw [C93_moment_lists_partial 3 (by decide) 2 _ [.list [.atom (.int 1), .atom (.int 2)], .list [], .list [.atom (.int 4)]]
    rfl (by simp [FlatOrLists, intArray]) (by simp) (by simp [all_listOffset, all_numpy, intArray, params])
    (R.lists (by decide +kernel)) (by simp)]
  simp [Val.leaves, Val.leavesAll, Atom.asRat]
  norm_num

/-- **C93 (partial).** `moment(x, 1)` is the mean, with any weights or without. -/
theorem C93_first_partial (fuel : Nat) (hf : 1 ≤ fuel) (xs ws : List Rat) (hl : ws.length = xs.length) :
    momentReal fuel 1 none (reals xs) = meanReal fuel none (reals xs) ∧
    momentReal fuel 1 (some (reals ws)) (reals xs) = meanReal fuel (some (reals ws)) (reals xs) := by
  rw [momentReal_none hf, meanReal_none, momentReal_some hf 1 hl, meanReal_some hf hl]
  simp

/-- **C93 (partial).** The mean without weights is the sum of all numbers of the array, whatever lists, records, unions
and missing values surround them, divided by how many they are; without numbers it is NaN. Missing: rounding, and
an axis. -/
theorem C93_mean_partial (fuel : Nat) (c : Content) (vs : List Val) (hv : c.validity = ok ()) (hl : c.toList = ok vs)
    (ht : AllNodes TrimNode c) (hf : AllNodes FullNode c) :
    meanReal fuel none c = ok (if vs.flatMap Val.leaves = [] then none
      else some (((vs.flatMap Val.leaves).map Atom.asRat).sum / ((vs.flatMap Val.leaves).length : Rat))) := by
  have h1 := C73_count_partial c vs hv hl ht hf
  have h2 : sumReal c = ok (npSumReal (vs.flatMap Val.leaves)) :=
    C73_reduce_partial (· + ·) 0 Atom.asRat Rat.add_assoc Rat.add_comm Rat.zero_add c vs hv hl ht hf
  have h3 : npSumReal (vs.flatMap Val.leaves) = ((vs.flatMap Val.leaves).map Atom.asRat).sum := by
    rw [npSumReal, List.sum, List.foldr_map]
  unfold meanReal sumWeights
  simp only [h1, bind_ok, h2, h3, divideReal]
  simp only [Nat.cast_eq_zero, List.length_eq_zero_iff]

/-- The records with lists meet the hypotheses: six numbers, of sum 66. -/
example : meanReal 0 none someRecords = ok (some 11) := by
  have hl : someRecords.toList = ok
      [.list [.record [("x", .atom (.int 1)), ("y", .list [.atom (.int 10)])],
      .record [("x", .atom (.int 2)), ("y", .list [])]], .null,
      .list [.record [("x", .atom (.int 3)), ("y", .list [.atom (.int 20), .atom (.int 30)])]]] :=
    R.lists (by decide +kernel)
  have ht : AllNodes TrimNode someRecords := by
    simp [someRecords, all_numpy, all_listOffset, all_listArray, all_indexedOption, all_record, TrimNode, intArray, len]
  have hf : AllNodes FullNode someRecords := by
    simp [someRecords, all_numpy, all_listOffset, all_listArray, all_indexedOption, all_record, FullNode, intArray]
  rw [C93_mean_partial 0 someRecords _ rfl hl ht hf]
  simp [Val.leaves, Val.leavesAll, Val.leavesFields, Atom.asRat]
  norm_num

/-- **C93 (partial).** The mean with weights is the sum of the products, divided by the sum of the weights. -/
theorem C93_weighted_mean_partial (fuel : Nat) (hf : 1 ≤ fuel) (xs ws : List Rat) (hl : ws.length = xs.length)
    (hw : ws.sum ≠ 0) :
    meanReal fuel (some (reals ws)) (reals xs) = ok (some ((xs.zipWith (· * ·) ws).sum / ws.sum)) := by
  rw [meanReal_some hf hl, divideReal, if_neg hw]

/-- **C93 (partial).** `var(x)` is the mean of the squares less the square of the mean. -/
theorem C93_var_partial (fuel : Nat) (hf : 1 ≤ fuel) (xs : List Rat) (hx : xs ≠ []) :
    varReal fuel none 0 (reals xs) =
      ok (some ((xs.map (· ^ 2)).sum / xs.length - (xs.sum / xs.length) ^ 2)) := by
  have hn : (xs.length : Rat) ≠ 0 := by simpa using hx
  rw [varReal_none hf 0 hx, if_neg (by simp), divideReal, if_neg hn, sum_squares]
  congr 2
  field_simp
  ring

/-- **C93 (partial).** The variance with weights is the weighted mean of the squared distances from the weighted mean. -/
theorem C93_weighted_var_partial (fuel : Nat) (hf : 1 ≤ fuel) (xs ws : List Rat) (hl : ws.length = xs.length)
    (hw : ws.sum ≠ 0) :
    ∃ m, meanReal fuel (some (reals ws)) (reals xs) = ok (some m) ∧
      varReal fuel (some (reals ws)) 0 (reals xs) =
        ok (some (((xs.map (fun x => (x - m) ^ 2)).zipWith (· * ·) ws).sum / ws.sum)) := by
  refine ⟨_, C93_weighted_mean_partial fuel hf xs ws hl hw, ?_⟩
  rw [varReal_some hf hl hw, divideReal, if_neg hw]

/-- **C93 (partial).** With `ddof`, the divisor is the number of values less `ddof`. -/
theorem C93_ddof_partial (fuel : Nat) (hf : 1 ≤ fuel) (ddof : Int) (xs : List Rat) (hx : xs ≠ [])
    (hd : ddof ≠ xs.length) :
    varReal fuel none ddof (reals xs) =
      ok (some ((xs.map (fun x => (x - xs.sum / xs.length) ^ 2)).sum / ((xs.length : Rat) - (ddof : Rat)))) := by
  have hn : (xs.length : Rat) ≠ 0 := by simpa using hx
  have hd' : (xs.length : Rat) - ddof ≠ 0 := by
    intro h
    apply hd
    have h' : ((xs.length : Int) : Rat) = (ddof : Rat) := by push_cast; linarith
    exact_mod_cast h'.symm
  rw [varReal_none hf ddof hx]
  by_cases h0 : ddof = 0
  · subst h0
    rw [if_neg (by simp), divideReal, if_neg hn]
    simp
  · rw [if_pos h0, divideReal, divideReal, if_neg hn, if_neg hd']
    simp only
    generalize (xs.map (fun x => (x - xs.sum / xs.length) ^ 2)).sum = s
    congr 2
    field_simp

/-- **C93 (partial).** Weighting values equally is the same as no weights, for `mean` and for `var` without `ddof`. -/
theorem C93_equal_weights_partial (fuel : Nat) (hf : 1 ≤ fuel) (xs : List Rat) (hx : xs ≠ []) (k : Rat) (hk : k ≠ 0) :
    meanReal fuel (some (reals (List.replicate xs.length k))) (reals xs) = meanReal fuel none (reals xs) ∧
    varReal fuel (some (reals (List.replicate xs.length k))) 0 (reals xs) = varReal fuel none 0 (reals xs) := by
  have hn : (xs.length : Rat) ≠ 0 := by simpa using hx
  have hl : (List.replicate xs.length k).length = xs.length := by simp
  have hs : (List.replicate xs.length k).sum = xs.length * k := by simp
  constructor
  · rw [meanReal_some hf hl, meanReal_none, zipWith_replicate_mul, hs, divide_scaled hk]
  · rw [varReal_some hf hl (by rw [hs]; exact mul_ne_zero hn hk), varReal_none hf 0 hx, if_neg (by simp),
      zipWith_replicate_mul, hs, mul_div_mul_right _ _ hk]
    have h := zipWith_replicate_mul (xs.map (fun x => (x - xs.sum / xs.length) ^ 2)) k
    rw [List.length_map] at h
    rw [h, divide_scaled hk]

/-- The hypotheses can be met. -/
example : meanReal 1 none (reals [1, 2, 6]) = ok (some 3) ∧ varReal 1 none 0 (reals [1, 2, 6]) = ok (some (14 / 3)) ∧
    varReal 1 none 1 (reals [1, 2, 6]) = ok (some 7) ∧ momentReal 1 2 none (reals [1, 2, 6]) = ok (some (41 / 3)) ∧
    meanReal 1 (some (reals [3, 0, 1])) (reals [1, 2, 6]) = ok (some (9 / 4)) := by
  refine ⟨?_, ?_, ?_, ?_, ?_⟩
  · rw [meanReal_none, divideReal, if_neg (by simp)]; norm_num
  · rw [C93_var_partial 1 (by decide) _ (by simp)]; norm_num
  · rw [C93_ddof_partial 1 (by decide) 1 [1, 2, 6] (by simp) (by simp)]; norm_num
  · rw [C93_moment_partial 1 (by decide) 2 _ (by simp)]; norm_num
  · rw [C93_weighted_mean_partial 1 (by decide) _ _ (by simp) (by norm_num)]; norm_num

/-- **C93 is violated:** weighting values equally is not the same as no weights for `moment`, because the weights are
raised to the power as well. -/
theorem C93_moment_weights_violated : momentReal 1 2 none (reals [1, 3]) = ok (some 5) ∧
    momentReal 1 2 (some (reals [2, 2])) (reals [1, 3]) = ok (some 10) := by
  constructor
  · rw [momentReal_none (by decide), divideReal, if_neg (by simp)]; norm_num
  · rw [momentReal_some (by decide) 2 (by simp), divideReal, if_neg (by norm_num)]; norm_num

/-- **C93 is violated:** nor is it for `var` with `ddof`, which is subtracted from the sum of the weights. -/
theorem C93_ddof_weights_violated : varReal 1 none 1 (reals [1, 3]) = ok (some 2) ∧
    varReal 1 (some (reals [2, 2])) 1 (reals [1, 3]) = ok (some (4 / 3)) := by
  constructor
  · rw [C93_ddof_partial 1 (by decide) 1 [1, 3] (by simp) (by simp)]; norm_num
  · decide +kernel

/-- **C93 is violated:** `moment(x, 0)`, documented to be the sum of weights, is the number of values divided by it. -/
theorem C93_moment_zero_violated : momentReal 1 0 none (reals [1, 3]) = ok (some 1) ∧
    momentReal 1 0 (some (reals [2, 3])) (reals [1, 3]) = ok (some (2 / 5)) := by
  constructor
  · rw [momentReal_none (by decide), divideReal, if_neg (by simp)]; norm_num
  · rw [momentReal_some (by decide) 0 (by simp), divideReal, if_neg (by norm_num)]; norm_num

end Awk.Props
