import Verif.Lemmas.GetitemTop
/-
Boolean masks, n-dimensional index arrays, and what `select` means for a single index array.
-/

namespace Awk
open R Spec

/-! ### Boolean masks -/

theorem pyRangeLen_unit (n : Nat) : pyRangeLen 0 (n : Int) 1 = n := by
  simp [pyRangeLen]

theorem forStep_unit (n : Nat) (body : Int → σ → R σ) (st : σ) :
    forStep true 0 (n : Int) 1 body st = forN n (fun i st => body (i : Int) st) st := by
  have := forStep_eq (a := 0) (b := (n : Int)) (s := 1) (by decide) body st
  rw [pyRangeLen_unit] at this
  simpa using this

/-- The positions of the entries of a mask that are not zero. -/
def trueAt (data : List Int) (n : Nat) : List Int :=
  ((List.range n).filter (fun i => data[i]?.getD 0 != 0)).map Int.ofNat

theorem trueAt_succ (data : List Int) (n : Nat) :
    trueAt data (n + 1) = trueAt data n ++ if data[n]?.getD 0 ≠ 0 then [(n : Int)] else [] := by
  simp only [trueAt, List.range_succ, List.filter_append, List.map_append]
  congr 1
  by_cases h : data[n]?.getD 0 = 0 <;> simp [h]

theorem trueAt_length_le (data : List Int) {k n : Nat} (h : k ≤ n) :
    (trueAt data k).length ≤ (trueAt data n).length := by
  induction n with
  | zero => rw [Nat.le_zero.mp h]
  | succ n ih =>
    by_cases hk : k = n + 1
    · rw [hk]
    · rw [trueAt_succ, List.length_append]
      have := ih (by omega)
      omega

theorem numtrue_ok {data : List Int} {n : Nat} (h : n ≤ data.length) :
    NumpyArray_getitem_boolean_numtrue data n 1 = ok ((trueAt data n).length : Int) := by
  unfold NumpyArray_getitem_boolean_numtrue
  rw [forStep_unit]
  induction n with
  | zero => rfl
  | succ n ih =>
    rw [forN_succ, ih (by omega), bind_ok, rd_nat_ok (by omega), bind_ok, trueAt_succ]
    have : data[n]?.getD 0 = data[n] := by simp [show n < data.length by omega]
    rw [this]
    by_cases h0 : data[n] = 0 <;> simp [h0]

theorem nonzero_ok {data : List Int} {n : Nat} (h : n ≤ data.length) {buf : List Int}
    (hb : buf.length = (trueAt data n).length) :
    NumpyArray_getitem_boolean_nonzero buf data n 1 = ok (trueAt data n) := by
  unfold NumpyArray_getitem_boolean_nonzero
  rw [forStep_unit]
  have key : ∀ k, k ≤ n → forN k (fun i (ck : List Int × Int) =>
      rd data (i : Int) >>= fun x =>
      if x ≠ 0 then wr ck.1 ck.2 (i : Int) >>= fun toptr => ok (toptr, ck.2 + 1) else ok ck)
      (buf, 0) = ok (trueAt data k ++ buf.drop (trueAt data k).length,
        ((trueAt data k).length : Int)) := by
    intro k
    induction k with
    | zero => intro _; simp [trueAt]
    | succ k ih =>
      intro hk
      rw [forN_succ, ih (by omega), bind_ok, rd_nat_ok (by omega), bind_ok, trueAt_succ]
      have e : data[k]?.getD 0 = data[k] := by simp [show k < data.length by omega]
      rw [e]
      by_cases h0 : data[k] = 0
      · simp [h0]
      · have hl := trueAt_length_le data hk
        rw [trueAt_succ, e, List.length_append] at hl
        simp only [ne_eq, h0, not_false_eq_true, if_true, List.length_singleton] at hl
        simp only [ne_eq, h0, not_false_eq_true, if_true]
        rw [wr_nat_ok (by simp; omega), bind_ok]
        congr 1
        rw [List.set_append_right _ _ (Nat.le_refl _), Nat.sub_self,
          List.drop_eq_getElem_cons (by omega), List.set_cons_zero]
        simp
  rw [key n (Nat.le_refl _), bind_ok]
  simp [List.drop_of_length_le (Nat.le_of_eq hb)]

theorem maskSlice_ok {data : List Int} {n : Nat} (h : n ≤ data.length) :
    maskSlice data n 1 = ok (.array [(trueAt data n).length] (trueAt data n)) := by
  unfold maskSlice
  rw [numtrue_ok h, bind_ok, nonzero_ok h (by simp [alloc]), bind_ok]
  simp

/-! ### A single index array -/

theorem nest_one {xs : List Val} {n : Nat} (h : xs.length = n) : nest [n] xs = .list xs := by
  simp only [nest, List.prod_nil, Nat.mul_one]
  congr 1
  apply List.ext_getElem
  · simp [h]
  · intro i h1 h2
    simp only [List.getElem_map, List.getElem_range, List.headD_eq_head?_getD, List.head?_take,
      List.head?_drop]
    simp [h2]

theorem mapM_range {α β : Type} {f : α → Option β} (xs : List α) :
    (List.range xs.length).mapM (fun j => xs[j]?.bind f) = xs.mapM f := by
  induction xs with
  | nil => rfl
  | cons x xs ih =>
    rw [List.length_cons, List.range_succ_eq_map, List.mapM_cons, List.mapM_cons]
    congr 1
    funext y
    rw [List.mapM_map]
    congr 1

theorem mapM_length {α β : Type} {f : α → Option β} {xs : List α} {ys : List β}
    (h : xs.mapM f = some ys) : ys.length = xs.length := by
  induction xs generalizing ys with
  | nil => simp at h; simp [h]
  | cons x xs ih =>
    simp only [List.mapM_cons] at h
    cases hx : f x with
    | none => simp [hx] at h
    | some y =>
      cases hxs : xs.mapM f with
      | none => simp [hx, hxs] at h
      | some zs => simp [hx, hxs] at h; rw [← h]; simp [ih hxs]

theorem mapM_congr_mem {α β : Type} {f g : α → Option β} {xs : List α}
    (h : ∀ x ∈ xs, f x = g x) : xs.mapM f = xs.mapM g := by
  induction xs with
  | nil => rfl
  | cons x xs ih =>
    rw [List.mapM_cons, List.mapM_cons, h x List.mem_cons_self,
      ih (fun y hy => h y (List.mem_cons_of_mem _ hy))]

theorem pyGet?_mem {vs : List Val} {i : Int} {v : Val} (h : pyGet? vs i = some v) : v ∈ vs := by
  unfold pyGet? at h
  split at h
  · exact List.mem_of_getElem? h
  · split at h
    · exact List.mem_of_getElem? h
    · cases h

theorem select_array {vs : List Val} {shape : List Nat} {flat : List Int} :
    select [.array shape flat] none (.list vs) = (flat.mapM (pyGet? vs)).map (nest shape) := by
  simp only [select, selItem, selList]
  congr 1
  rw [← mapM_range flat]
  refine congrArg (fun f : Nat → Option Val => List.mapM f (List.range flat.length)) ?_
  funext j
  cases flat[j]?.bind (pyGet? vs) <;> rfl

/-! ### N-dimensional index arrays -/

theorem ravel_one {data : List Int} {offset s : Int} {n : Nat}
    (h : ∀ i : Nat, i < n → 0 ≤ offset + i * s ∧ offset + i * s < data.length) {o : Nat}
    {buf : List Int} (hb : o + n ≤ buf.length) (ss : List Int) :
    slicearray_ravel data [n] (s :: ss) o offset buf
      = ok (buf.take o ++ (List.range n).map (fun (i : Nat) => data[(offset + i * s).toNat]?.getD 0)
          ++ buf.drop (o + n)) := by
  simp only [slicearray_ravel]
  induction n with
  | zero => simp
  | succ n ih =>
    rw [forN_succ, ih (fun i hi => h i (by omega)) (by omega), bind_ok]
    obtain ⟨h1, h2⟩ := h n (by omega)
    obtain ⟨k, hk⟩ := Int.eq_ofNat_of_zero_le h1
    rw [hk] at h2 ⊢
    rw [rd_nat_ok (by omega), bind_ok]
    have e : (o : Int) + (n : Int) = ((o + n : Nat) : Int) := by push_cast; rfl
    rw [e, wr_nat_ok (by simp; omega)]
    congr 1
    rw [List.set_append_right _ _ (by simp)]
    simp only [List.length_append, List.length_take, List.length_map, List.length_range,
      Nat.min_eq_left (show o ≤ buf.length by omega), Nat.sub_self]
    rw [List.drop_eq_getElem_cons (by omega), List.set_cons_zero, List.range_succ]
    simp only [List.map_append, List.map_cons, List.map_nil, hk, Int.toNat_natCast]
    rw [List.getElem?_eq_getElem (by omega)]
    simp [Nat.add_assoc]

theorem ravel_two {data : List Int} {offset s t : Int} {n m : Nat}
    (h : ∀ i : Nat, i < n → ∀ j : Nat, j < m →
      0 ≤ offset + i * s + j * t ∧ offset + i * s + j * t < data.length) (ss : List Int) :
    ravel data offset [n, m] (s :: t :: ss)
      = ok ((List.range n).map (fun (i : Nat) => (List.range m).map (fun (j : Nat) =>
          data[(offset + i * s + j * t).toNat]?.getD 0))).flatten := by
  unfold ravel
  simp only [slicearray_ravel.eq_2]
  simp only [List.prod_cons, List.prod_nil, Nat.mul_one]
  have hal : (alloc (n * m : Nat)).length = n * m := by
    rw [alloc, List.length_replicate, Int.toNat_natCast]
  generalize alloc (n * m : Nat) = buf at hal ⊢
  have key : ∀ k, k ≤ n → forN k (fun i toptr => slicearray_ravel data [m] (t :: ss)
      (0 + (i : Int) * (m : Int)) (offset + (i : Int) * s) toptr) buf
      = ok (((List.range k).map (fun (i : Nat) => (List.range m).map (fun (j : Nat) =>
          data[(offset + i * s + j * t).toNat]?.getD 0))).flatten ++ buf.drop (k * m)) := by
    intro k
    induction k with
    | zero => intro _; simp
    | succ k ih =>
      intro hk
      have hm : (k + 1) * m ≤ n * m := Nat.mul_le_mul_right _ hk
      have hm' : (k + 1) * m = k * m + m := Nat.succ_mul _ _
      rw [forN_succ, ih (by omega), bind_ok]
      have e : (0 : Int) + (k : Int) * (m : Int) = ((k * m : Nat) : Int) := by push_cast; ring
      have hfl : ((List.range k).map (fun (i : Nat) => (List.range m).map (fun (j : Nat) =>
          data[(offset + i * s + j * t).toNat]?.getD 0))).flatten.length = k * m := by
        simp [List.length_flatten, Function.comp_def]
      rw [e, ravel_one (h k (by omega)) (by rw [List.length_append, hfl, List.length_drop]; omega)]
      congr 1
      rw [List.take_append_of_le_length (by omega), List.take_of_length_le (by omega),
        List.drop_append, hfl, List.drop_drop, List.drop_of_length_le (by omega)]
      rw [List.range_succ]
      simp only [List.map_append, List.flatten_append, List.map_cons, List.map_nil,
        List.flatten_cons, List.flatten_nil, List.append_nil, List.nil_append, List.append_assoc]
      congr 3
      omega
  rw [key n (Nat.le_refl _), List.drop_of_length_le (by omega), List.append_nil]

end Awk
