import Verif.Lemmas.MergeVal
import Mathlib.Data.Fintype.Basic
/-
The kernels that merging uses: each writes a segment after what is already there.
-/

namespace Awk
open R

theorem foldR_nil (f : σ → α → R σ) (s : σ) : foldR f s [] = ok s := rfl
theorem foldR_cons (f : σ → α → R σ) (s : σ) (a : α) (l : List α) :
    foldR f s (a :: l) = (f s a >>= fun s => foldR f s l) := rfl

/-- Elements that leave the state alone can be left out. -/
theorem foldR_filter {f : σ → α → R σ} {q : α → Bool} {l : List α}
    (h : ∀ s, ∀ a ∈ l, q a = false → f s a = ok s) (s : σ) :
    foldR f s l = foldR f s (l.filter q) := by
  induction l generalizing s with
  | nil => rfl
  | cons a l ih =>
    have ih' := ih (fun s a ha => h s a (List.mem_cons_of_mem _ ha))
    rw [foldR_cons]
    cases hq : q a with
    | false => rw [h s a List.mem_cons_self hq, bind_ok, List.filter_cons_of_neg (by simp [hq]), ih']
    | true =>
      rw [List.filter_cons_of_pos hq, foldR_cons]
      exact bind_congr' (fun s _ => ih' s)

/-- A loop that writes a segment after `done`. -/
theorem fill_at {n : Nat} {f : Nat → R α} (g : Nat → α) {done rest : List α}
    (hn : n ≤ rest.length) (hf : ∀ i, i < n → f i = ok (g i)) :
    forN n (fun i b => f i >>= fun x => wr b ((done.length + i : Nat) : Int) x) (done ++ rest)
      = ok (done ++ (List.range n).map g ++ rest.drop n) := by
  rw [forN_fill f done.length (done ++ rest) (by simp; omega), mapN_ok' g hf, bind_ok]
  simp

theorem fill_at' {n : Nat} {f : Nat → R α} (xs : List α) {done rest : List α}
    (hx : xs.length = n) (hn : n ≤ rest.length) (hf : ∀ i (h : i < xs.length), f i = ok xs[i]) :
    forN n (fun i b => f i >>= fun x => wr b ((done.length + i : Nat) : Int) x) (done ++ rest)
      = ok (done ++ xs ++ rest.drop n) := by
  cases xs with
  | nil => simp at hx; subst hx; simp [forN]
  | cons x xs =>
    rw [fill_at (fun i => (x :: xs)[i]?.getD x) hn (fun i hi => by
      rw [hf i (by omega), List.getElem?_eq_getElem (by omega)]; rfl)]
    congr 3
    apply List.ext_getElem?
    intro i
    simp only [List.getElem?_map]
    by_cases hi : i < n
    · rw [List.getElem?_range hi, List.getElem?_eq_getElem (by omega)]
      simp [List.getElem?_eq_getElem (show i < (x :: xs).length by omega)]
    · rw [List.getElem?_eq_none (by simp; omega), List.getElem?_eq_none (by omega)]; rfl

theorem IndexedArray_fill_ok {done rest index : List Int} {base : Nat}
    (h : index.length ≤ rest.length) :
    IndexedArray_fill (done ++ rest) done.length index index.length base
      = ok (done ++ index.map (Content.shiftIx base) ++ rest.drop index.length) := by
  unfold IndexedArray_fill
  refine fill_at' _ (by simp) h (fun i hi => ?_)
  simp only [List.length_map] at hi
  rw [rd_nat_ok hi, bind_ok]
  simp [Content.shiftIx]

theorem IndexedArray_fill_count_ok {done rest : List Int} {n base : Nat} (h : n ≤ rest.length) :
    IndexedArray_fill_count (done ++ rest) done.length n base
      = ok (done ++ (List.range n).map (fun (i : Nat) => (i : Int) + base) ++ rest.drop n) := by
  unfold IndexedArray_fill_count
  exact fill_at _ h (fun i hi => rfl)

theorem UnionArray_filltags_ok {done rest tags : List Int} {base : Nat}
    (h : tags.length ≤ rest.length) :
    UnionArray_filltags (done ++ rest) done.length tags tags.length base
      = ok (done ++ tags.map (· + (base : Int)) ++ rest.drop tags.length) := by
  unfold UnionArray_filltags
  refine fill_at' _ (by simp) h (fun i hi => ?_)
  simp only [List.length_map] at hi
  rw [rd_nat_ok hi, bind_ok]
  simp

theorem UnionArray_filltags_const_ok {done rest : List Int} {n base : Nat} (h : n ≤ rest.length) :
    UnionArray_filltags_const (done ++ rest) done.length n base
      = ok (done ++ List.replicate n (base : Int) ++ rest.drop n) := by
  unfold UnionArray_filltags_const
  refine fill_at' _ (by simp) h (fun i hi => ?_)
  simp

theorem UnionArray_fillindex_ok {done rest index : List Int} {n : Nat} (h : n ≤ rest.length)
    (hn : n ≤ index.length) :
    UnionArray_fillindex (done ++ rest) done.length index n
      = ok (done ++ index.take n ++ rest.drop n) := by
  unfold UnionArray_fillindex
  refine fill_at' _ (by simp; omega) h (fun i hi => ?_)
  simp only [List.length_take] at hi
  rw [rd_nat_ok (by omega)]
  simp

theorem UnionArray_fillindex_count_ok {done rest : List Int} {n : Nat} (h : n ≤ rest.length) :
    UnionArray_fillindex_count (done ++ rest) done.length n
      = ok (done ++ (List.range n).map (fun (i : Nat) => (i : Int)) ++ rest.drop n) := by
  unfold UnionArray_fillindex_count
  exact fill_at _ h (fun i hi => rfl)

theorem NumpyArray_fill_ok {d : DType} {done rest data : List Atom}
    (h : data.length ≤ rest.length) :
    NumpyArray_fill d (done ++ rest) done.length data data.length
      = ok (done ++ data.map (·.convert d) ++ rest.drop data.length) := by
  unfold NumpyArray_fill
  refine fill_at' _ (by simp) h (fun i hi => ?_)
  simp only [List.length_map] at hi
  rw [rd_nat_ok hi, bind_ok]
  simp

theorem ListArray_fill_ok {done1 rest1 done2 rest2 starts stops : List Int} {n base : Nat}
    (hs : starts.length = n) (ht : n ≤ stops.length) (h1 : n ≤ rest1.length)
    (h2 : n ≤ rest2.length) :
    ListArray_fill (done1 ++ rest1) done1.length (done2 ++ rest2) done2.length starts stops n base
      = ok (done1 ++ starts.map (· + (base : Int)) ++ rest1.drop n,
          done2 ++ (stops.take n).map (· + (base : Int)) ++ rest2.drop n) := by
  unfold ListArray_fill
  suffices hk : ∀ m, m ≤ n → forN m (fun i (st : List Int × List Int) =>
      rd starts (i : Int) >>= fun start =>
      wr st.1 ((done1.length + i : Nat) : Int) (start + base) >>= fun tostarts =>
      rd stops (i : Int) >>= fun stop =>
      wr st.2 ((done2.length + i : Nat) : Int) (stop + base) >>= fun tostops =>
      ok (tostarts, tostops)) (done1 ++ rest1, done2 ++ rest2)
      = ok (done1 ++ (starts.take m).map (· + (base : Int)) ++ rest1.drop m,
          done2 ++ (stops.take m).map (· + (base : Int)) ++ rest2.drop m) by
    have := hk n (Nat.le_refl _)
    rw [List.take_of_length_le (l := starts) (by omega)] at this
    exact this
  intro m
  induction m with
  | zero => intro _; simp [forN]
  | succ m ih =>
    intro hm
    rw [forN_succ, ih (by omega), bind_ok, rd_nat_ok (by omega), bind_ok]
    dsimp only
    rw [wr_nat_ok (by simp; omega), bind_ok, rd_nat_ok (by omega), bind_ok,
      wr_nat_ok (by simp; omega), bind_ok]
    have e : ∀ (done rest xs : List Int) (hx : m < xs.length) (hr : m < rest.length),
        (done ++ (xs.take m).map (· + (base : Int)) ++ rest.drop m).set (done.length + m)
          (xs[m] + base) = done ++ (xs.take (m + 1)).map (· + (base : Int)) ++ rest.drop (m + 1) := by
      intro done rest xs hx hr
      have hl : (done ++ (xs.take m).map (· + (base : Int))).length = done.length + m := by
        simp; omega
      rw [List.set_append_right _ _ (by omega), hl, Nat.sub_self, List.drop_eq_getElem_cons hr,
        List.set_cons_zero, List.take_add_one, List.getElem?_eq_getElem hx, List.map_append]
      simp only [Option.toList_some, List.map_cons, List.map_nil, List.append_assoc,
        List.singleton_append]
    rw [e _ _ _ (by omega) (by omega), e _ _ _ (by omega) (by omega)]

/-! ### The dtype of the merged numbers -/

instance : Fintype DType where
  elems := {.bool, .int8, .int16, .int32, .int64, .uint8, .uint16, .uint32, .uint64, .float32,
    .float64, .complex64, .complex128, .datetime64, .timedelta64}
  complete d := by cases d <;> decide

namespace DType

theorem kind_promote : ∀ d e : DType, d.kind = e.kind → (d.promote e).kind = d.kind := by decide

theorem fills_right : ∀ d e : DType, d.kind = e.kind → e ∈ (d.promote e).fillsFrom := by decide

set_option maxRecDepth 20000 in
theorem fills_mono : ∀ d e x : DType, d.kind = e.kind → x ∈ d.fillsFrom →
    x ∈ (d.promote e).fillsFrom := by decide

theorem complex_promote : ∀ d e : DType, e.isComplex = d.isComplex →
    (d.promote e).isComplex = d.isComplex := by decide

theorem isComplex_iff : ∀ d : DType, d.isComplex = true ↔ d = .complex64 ∨ d = .complex128 := by
  decide

theorem complex_kind : ∀ d : DType, d.kind ≠ .number → d.isComplex = false := by decide

theorem fold_complex {l : List α} {f : α → DType} {d : DType}
    (h : ∀ a ∈ l, (f a).isComplex = d.isComplex) :
    (l.foldl (fun e a => e.promote (f a)) d).isComplex = d.isComplex := by
  induction l generalizing d with
  | nil => rfl
  | cons a l ih =>
    have hp := complex_promote d (f a) (h a List.mem_cons_self)
    rw [List.foldl_cons, ih (fun b hb => by rw [hp]; exact h b (List.mem_cons_of_mem _ hb)), hp]

theorem fold_promote {l : List α} {f : α → DType} {d : DType} (h : ∀ a ∈ l, (f a).kind = d.kind) :
    (l.foldl (fun e a => e.promote (f a)) d).kind = d.kind ∧
      (∀ x ∈ d.fillsFrom, x ∈ (l.foldl (fun e a => e.promote (f a)) d).fillsFrom) ∧
      ∀ a ∈ l, f a ∈ (l.foldl (fun e a => e.promote (f a)) d).fillsFrom := by
  induction l generalizing d with
  | nil => simp
  | cons a l ih =>
    have ha := h a List.mem_cons_self
    have hk := kind_promote d (f a) ha.symm
    obtain ⟨h1, h2, h3⟩ := ih (d := d.promote (f a))
      (fun b hb => by rw [hk]; exact h b (List.mem_cons_of_mem _ hb))
    simp only [List.foldl_cons]
    refine ⟨h1.trans hk, fun x hx => h2 x (fills_mono _ _ _ ha.symm hx), ?_⟩
    intro b hb
    rcases List.mem_cons.mp hb with rfl | hb
    · exact h2 _ (fills_right _ _ ha.symm)
    · exact h3 b hb

end DType

end Awk
