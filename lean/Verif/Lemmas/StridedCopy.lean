import Verif.Lemmas.Strided
import Verif.Lemmas.Option
/-
Helper lemmas about NumPy arrays with strides: contiguous copies.
-/

namespace Awk
open R Spec
namespace Nd

/-- The rows of `g` one after another. -/
def grid (g : Nat → Nat → α) (n m : Nat) : List α :=
  ((List.range n).map (fun i => (List.range m).map (g i))).flatten

theorem grid_length (g : Nat → Nat → α) (n m : Nat) : (grid g n m).length = n * m := by
  unfold grid
  rw [flatten_length_const (m := m)]
  · simp
  · intro xs hxs
    obtain ⟨i, _, rfl⟩ := List.mem_map.mp hxs
    simp

theorem grid_get (g : Nat → Nat → α) {n m i j : Nat} (hi : i < n) (hj : j < m) :
    (grid g n m)[i * m + j]? = some (g i j) := by
  induction n with
  | zero => omega
  | succ n ih =>
    have e : grid g (n + 1) m = grid g n m ++ (List.range m).map (g n) := by
      simp [grid, List.range_succ]
    rw [e]
    by_cases h : i < n
    · have hlt : i * m + j < n * m := by
        calc i * m + j < i * m + m := by omega
          _ = (i + 1) * m := by ring
          _ ≤ n * m := Nat.mul_le_mul_right _ h
      rw [List.getElem?_append_left (by rw [grid_length]; exact hlt)]
      exact ih h
    · obtain rfl : i = n := by omega
      rw [List.getElem?_append_right (by rw [grid_length]; omega), grid_length]
      simp [hj]

theorem grid_ok {n m : Nat} {f : Nat → Nat → R α} (g : Nat → Nat → α) {out : List α}
    (hlen : out.length = n * m) (hf : ∀ i j, i < n → j < m → f i j = ok (g i j)) :
    forN n (fun i b => forN m (fun j b => f i j >>= fun x => wr b ((i * m + j : Nat) : Int) x) b) out
      = ok (grid g n m) := by
  have h := forN_fill_nested (n := n) (m := m) f 0 out (by omega)
  simp only [Nat.zero_add] at h
  rw [h, mapN_ok' (fun i => (List.range m).map (g i)) (fun i hi => mapN_ok' (g i) (fun j hj => hf i j hi hj)),
    bind_ok]
  simp [grid, hlen]

theorem memcpy_eq {toptr fromptr : List UInt8} {i K : Nat} {src : Int} :
    memcpy toptr fromptr ((i : Int) * (K : Int)) src K
      = forN K (fun j b => rd fromptr (src + (j : Int)) >>= fun x => wr b ((i * K + j : Nat) : Int) x) toptr := by
  unfold memcpy
  apply forN_congr
  intro j _ s
  simp only [Nat.cast_add, Nat.cast_mul]

/-- Both copying kernels: rows of `K` bytes from the positions `src i`. -/
theorem copy_ok {fromptr out : List UInt8} {n K : Nat} (src : Nat → Int) {pos : Nat → R Int}
    {shift : Int → Int} (hpos : ∀ i, i < n → ∃ p, pos i = ok p ∧ shift p = src i)
    (hlen : out.length = n * K)
    (hr : ∀ i j, i < n → j < K → (rd fromptr (src i + (j : Int))).IsOk) :
    ∃ ptr : List UInt8, forN n (fun (i : Nat) toptr => pos i >>= fun p =>
        memcpy toptr fromptr ((i : Int) * (K : Int)) (shift p) ((K : Int)).toNat) out = ok ptr ∧
      ptr.length = n * K ∧
      ∀ i j, i < n → j < K → rd ptr (((i : Int) * (K : Int)) + (j : Int)) = rd fromptr (src i + (j : Int)) := by
  have e : forN n (fun (i : Nat) toptr => pos i >>= fun p =>
        memcpy toptr fromptr ((i : Int) * (K : Int)) (shift p) ((K : Int)).toNat) out
      = forN n (fun i b => forN K (fun j b => rd fromptr (src i + (j : Int)) >>= fun x =>
          wr b ((i * K + j : Nat) : Int) x) b) out := by
    apply forN_congr
    intro i hi s
    obtain ⟨p, h1, h2⟩ := hpos i hi
    rw [h1, bind_ok, h2, Int.toNat_natCast, memcpy_eq]
  rw [e]
  rw [grid_ok (fun i j => match rd fromptr (src i + (j : Int)) with | ok x => x | _ => 0) hlen
    (fun i j hi hj => by
      obtain ⟨x, hx⟩ := hr i j hi hj
      simp only [hx])]
  refine ⟨_, rfl, grid_length _ _ _, ?_⟩
  intro i j hi hj
  obtain ⟨x, hx⟩ := hr i j hi hj
  rw [hx, rd_eq_ok]
  refine ⟨by positivity, ?_⟩
  rw [show ((i : Int) * (K : Int) + (j : Int)).toNat = i * K + j by
    rw [← Nat.cast_mul, ← Nat.cast_add, Int.toNat_natCast]]
  rw [grid_get _ hi hj]
  simp only [hx]

theorem contiguousFrom_eq {k : Nat} {ns : List Nat} {ss : List Int} {x : Int} (hl : ss.length = ns.length)
    (h : contiguousFrom k ns ss = some x) : x = ((k * ns.prod : Nat) : Int) := by
  induction ns generalizing ss x with
  | nil =>
    obtain rfl : ss = [] := by simpa using hl
    simp only [contiguousFrom, Option.some.injEq] at h
    simp [← h]
  | cons n ns ih =>
    cases ss with
    | nil => simp at hl
    | cons s ss =>
      simp only [contiguousFrom] at h
      cases h' : contiguousFrom k ns ss with
      | none => simp [h'] at h
      | some y =>
        have := ih (by simpa using hl) h'
        simp only [h'] at h
        by_cases hy : y = s
        · simp only [hy, ne_eq, not_true_eq_false, if_false, Option.some.injEq] at h
          rw [← h, ← hy, this]
          push_cast
          simp only [List.prod_cons]
          push_cast
          ring
        · simp [hy] at h

theorem contiguousFrom_cons {k n : Nat} {ns : List Nat} {s : Int} {ss : List Int} :
    (contiguousFrom k (n :: ns) (s :: ss)).isSome = true ↔ contiguousFrom k ns ss = some s := by
  simp only [contiguousFrom]
  cases h : contiguousFrom k ns ss with
  | none => simp
  | some y =>
    by_cases hy : y = s <;> simp [hy]

/-- A contiguous value reads exactly its bytes. -/
theorem block_read {a : Nd} {ns : List Nat} {ss : List Int} {x pos : Int} {v : Val}
    (hl : ss.length = ns.length) (hc : contiguousFrom a.itemsize ns ss = some x)
    (h : a.valueAt ns ss pos = ok v) :
    ∀ j, j < a.itemsize * ns.prod → (rd a.ptr (pos + (j : Int))).IsOk := by
  induction ns generalizing ss x pos v with
  | nil =>
    intro j hj
    simp only [valueAt, readItem, bind_eq_ok, ok.injEq] at h
    obtain ⟨_, ⟨bytes, hb, _⟩, _⟩ := h
    simp only [List.prod_nil, Nat.mul_one] at hj
    obtain ⟨h1, h2⟩ := mapN_eq_ok.mp hb
    exact ⟨_, h2 j (by omega)⟩
  | cons n ns ih =>
    cases ss with
    | nil => simp at hl
    | cons s ss =>
      intro j hj
      have hc' := contiguousFrom_cons.mp (by rw [hc]; rfl)
      have hl' : ss.length = ns.length := by simpa using hl
      have hs := contiguousFrom_eq hl' hc'
      obtain ⟨vs, rfl, hvl, hv⟩ := valueAt_cons.mp h
      simp only [List.prod_cons] at hj
      have hK : 0 < a.itemsize * ns.prod := by
        rcases Nat.eq_zero_or_pos (a.itemsize * ns.prod) with h0 | h0
        · have : a.itemsize * (n * ns.prod) = n * (a.itemsize * ns.prod) := by ring
          rw [this, h0] at hj; simp at hj
        · exact h0
      have hi : j / (a.itemsize * ns.prod) < n := by
        rw [Nat.div_lt_iff_lt_mul hK]
        calc j < _ := hj
          _ = _ := by ring
      have := ih hl' hc' (hv (j / (a.itemsize * ns.prod)) (by omega)) (j % (a.itemsize * ns.prod))
        (Nat.mod_lt _ hK)
      have e : pos + (((j / (a.itemsize * ns.prod) : Nat)) : Int) * s + ((j % (a.itemsize * ns.prod) : Nat) : Int)
          = pos + (j : Int) := by
        rw [hs, add_assoc, ← Nat.cast_mul, ← Nat.cast_add]
        congr 2
        rw [Nat.mul_comm]
        exact Nat.div_add_mod _ _
      rw [e] at this
      exact this

/-- Equal bytes, equal contiguous values. -/
theorem block_same {a b : Nd} {ns : List Nat} {ss : List Int} {x pos pos' : Int}
    (hk : b.itemsize = a.itemsize) (hd : b.decode = a.decode)
    (hl : ss.length = ns.length) (hc : contiguousFrom a.itemsize ns ss = some x)
    (h : ∀ j, j < a.itemsize * ns.prod → rd b.ptr (pos' + (j : Int)) = rd a.ptr (pos + (j : Int))) :
    b.valueAt ns ss pos' = a.valueAt ns ss pos := by
  induction ns generalizing ss x pos pos' with
  | nil =>
    simp only [valueAt, readItem, hk, hd]
    rw [mapN_congr (fun i hi => h i (by simpa using hi))]
  | cons n ns ih =>
    cases ss with
    | nil => simp at hl
    | cons s ss =>
      have hc' := contiguousFrom_cons.mp (by rw [hc]; rfl)
      have hl' : ss.length = ns.length := by simpa using hl
      have hs := contiguousFrom_eq hl' hc'
      simp only [valueAt]
      rw [mapN_congr (f := fun (i : Nat) => b.valueAt ns ss (pos' + (i : Int) * s))
        (g := fun (i : Nat) => a.valueAt ns ss (pos + (i : Int) * s))]
      intro i hi
      refine ih hl' hc' ?_
      intro j hj
      have hlt : i * (a.itemsize * ns.prod) + j < a.itemsize * (n :: ns).prod := by
        simp only [List.prod_cons]
        calc i * (a.itemsize * ns.prod) + j < (i + 1) * (a.itemsize * ns.prod) := by ring_nf; omega
          _ ≤ n * (a.itemsize * ns.prod) := Nat.mul_le_mul_right _ hi
          _ = a.itemsize * (n * ns.prod) := by ring
      have := h _ hlt
      rw [hs]
      push_cast at this ⊢
      rw [← add_assoc, ← add_assoc] at this
      exact this

theorem init_ok {n : Nat} {s : Int} {out : List Int} (h : out.length = n) :
    NumpyArray_contiguous_init out n s = ok ((List.range n).map (fun (i : Nat) => (i : Int) * s)) := by
  have := forN_fill_eq (f := fun i => ok ((i : Int) * s)) (fun (i : Nat) => (i : Int) * s) h (fun _ _ => rfl)
  simpa only [bind_ok, NumpyArray_contiguous_init] using this

theorem next_ok {n m : Nat} {s : Int} {pos out : List Int} (h : out.length = n * m) (hp : pos.length = n) :
    NumpyArray_contiguous_next out pos n m s
      = ok (grid (fun i j => pos[i]?.getD 0 + (j : Int) * s) n m) := by
  have := grid_ok (f := fun i j => rd pos (i : Int) >>= fun p => ok (p + (j : Int) * s))
    (fun i j => pos[i]?.getD 0 + (j : Int) * s) h (fun i j hi hj => by
      rw [rd_nat_ok (by omega), bind_ok]; simp [hp, hi])
  rw [← this]
  unfold NumpyArray_contiguous_next
  apply forN_congr
  intro i hi b
  apply forN_congr
  intro j hj b
  rw [R.bind_assoc]
  rfl

/-- What a contiguous copy of the rows of `a` at the given positions is. -/
def Copied (a : Nd) (ns : List Nat) (n : Nat) (v : Nat → Val) (b : Nd) : Prop :=
  ∃ (t : Int) (ts : List Int), b.strides = t :: ts ∧ ts.length = ns.length ∧
    contiguousFrom a.itemsize ns ts = some t ∧ b.byteoffset = 0 ∧ b.itemsize = a.itemsize ∧
    b.decode = a.decode ∧ b.dtype = a.dtype ∧ b.params = a.params ∧
    ∀ i, i < n → b.valueAt ns ts ((i : Int) * t) = ok (v i)

theorem copy_rows {a : Nd} {ns : List Nat} {ss : List Int} {pos : List Int} {v : Nat → Val} {x : Int}
    (hl : ss.length = ns.length) (hc : contiguousFrom a.itemsize ns ss = some x)
    (hv : ∀ i (h : i < pos.length), a.valueAt ns ss (a.byteoffset + pos[i]) = ok (v i)) :
    ∃ ptr, NumpyArray_contiguous_copy (allocBytes (pos.length * x)) a.ptr a.byteoffset pos.length x pos = ok ptr ∧
      ∀ shape, Copied a ns pos.length v { a with ptr := ptr, shape := shape, strides := x :: ss, byteoffset := 0 } := by
  have hx := contiguousFrom_eq hl hc
  subst hx
  obtain ⟨ptr, h1, h2, h3⟩ := copy_ok (fromptr := a.ptr)
    (out := allocBytes (pos.length * ((a.itemsize * ns.prod : Nat) : Int)))
    (n := pos.length) (K := a.itemsize * ns.prod) (fun i => a.byteoffset + pos[i]?.getD 0)
    (pos := fun (i : Nat) => rd pos (i : Int)) (shift := fun p => a.byteoffset + p)
    (fun i hi => ⟨_, rd_nat_ok hi, by simp [hi]⟩)
    (by rw [allocBytes, List.length_replicate, ← Nat.cast_mul, Int.toNat_natCast])
    (fun i j hi hj => by
      have := block_read hl hc (hv i hi) j hj
      simpa [hi] using this)
  refine ⟨ptr, h1, fun shape => ⟨_, ss, rfl, hl, hc, rfl, rfl, rfl, rfl, rfl, ?_⟩⟩
  intro i hi
  rw [← hv i hi]
  refine block_same (a := a) rfl rfl hl hc ?_
  intro j hj
  have := h3 i j hi hj
  simpa [hi] using this

theorem contiguousNext_ok : ∀ (fuel : Nat) (a : Nd) (m : Nat) (ns : List Nat) (s0 : Int) (ss : List Int)
    (pos : List Int) (v : Nat → Val), a.shape.length ≤ fuel →
    a.shape = m :: ns → a.strides = s0 :: ss → ss.length = ns.length →
    (∀ i (h : i < pos.length), a.valueAt ns ss (a.byteoffset + pos[i]) = ok (v i)) →
    ∃ b, a.contiguousNext pos = ok b ∧ b.shape = a.shape ∧ Copied a ns pos.length v b := by
  intro fuel
  induction fuel with
  | zero => intro a m ns s0 ss pos v hf hsh; simp [hsh] at hf
  | succ fuel ih =>
    intro a m ns s0 ss pos v hf hsh hst hls hv
    unfold contiguousNext
    by_cases hc : a.iscontiguous = true
    · rw [if_pos hc]
      have hc' : contiguousFrom a.itemsize ns ss = some s0 := by
        rw [iscontiguous, hsh, hst, contiguousFrom_cons] at hc; exact hc
      obtain ⟨ptr, e, h⟩ := copy_rows hls hc' hv
      have g : a.strides.getD 0 0 = s0 := by rw [hst]; rfl
      simp only [g]
      rw [e, bind_ok]
      refine ⟨_, rfl, rfl, ?_⟩
      have := h a.shape
      rw [← hst] at this
      exact this
    · rw [if_neg hc]
      cases ns with
      | nil =>
        obtain rfl : ss = [] := by simpa using hls
        rw [dif_pos (by simp [hsh])]
        obtain ⟨ptr, e, h⟩ := copy_rows (a := a) (ns := []) (ss := []) (x := (a.itemsize : Int)) rfl rfl hv
        rw [e, bind_ok]
        exact ⟨_, rfl, rfl, h a.shape⟩
      | cons n ns =>
        cases ss with
        | nil => simp at hls
        | cons s ss =>
          rw [dif_neg (by simp [hsh])]
          have g1 : a.shape.getD 1 0 = n := by rw [hsh]; rfl
          have g2 : a.strides.getD 1 0 = s := by rw [hst]; rfl
          rw [g1, g2, next_ok (by simp only [alloc, List.length_replicate, Int.toNat_natCast]) rfl, bind_ok]
          have f1 : (a.flat 0).shape = (m * n) :: ns := by simp [flat, hsh]
          have f2 : (a.flat 0).strides = s :: ss := by simp [flat, hst]
          have hrows : ∀ i (h : i < pos.length), v i = .list (v i).items ∧ (v i).items.length = n ∧
              ∀ j (h : j < (v i).items.length),
                a.valueAt ns ss (a.byteoffset + pos[i] + (j : Int) * s) = ok (v i).items[j] := by
            intro i h
            obtain ⟨vs, e1, e2, e3⟩ := valueAt_cons.mp (hv i h)
            rw [e1]
            exact ⟨rfl, e2, e3⟩
          obtain ⟨b, e, hbs, hb⟩ := ih (a.flat 0) (m * n) ns s ss
            (grid (fun i j => pos[i]?.getD 0 + (j : Int) * s) pos.length n)
            (fun k => (v (k / n)).items[k % n]?.getD .null)
            (by rw [f1]; rw [hsh] at hf; simp at hf ⊢; omega) f1 f2 (by simpa using hls)
            (by
              intro k hk
              rw [valueAt_flat]
              rw [grid_length] at hk
              have hn : 0 < n := by
                rcases Nat.eq_zero_or_pos n with h | h
                · rw [h] at hk; simp at hk
                · exact h
              have hi : k / n < pos.length := by rw [Nat.div_lt_iff_lt_mul hn]; exact hk
              have hj : k % n < n := Nat.mod_lt _ hn
              have hkk : k = k / n * n + k % n := by rw [Nat.mul_comm]; exact (Nat.div_add_mod _ _).symm
              have hg := grid_get (fun i j => pos[i]?.getD 0 + (j : Int) * s) hi hj
              rw [← hkk] at hg
              rw [List.getElem?_eq_getElem (by rw [grid_length]; exact hk)] at hg
              simp only [Option.some.injEq] at hg
              rw [hg]
              obtain ⟨h1, h2, h3⟩ := hrows (k / n) hi
              have h4 := h3 (k % n) (by rw [h2]; exact hj)
              rw [List.getElem?_eq_getElem (l := (v (k / n)).items) (by rw [h2]; exact hj), Option.getD_some, ← h4]
              congr 1
              simp [flat, hi]; ring)
          obtain ⟨t, ts, b1, b2, b3, b4, b5, b6, b7, b8, b9⟩ := hb
          rw [e, bind_ok]
          have hbt : b.strides.getD 0 0 = t := by rw [b1]; rfl
          refine ⟨_, rfl, rfl, ((n : Int) * t), t :: ts, ?_, by simp [b2], ?_, b4, b5, b6, b7, b8, ?_⟩
          · simp [b1]
          · have b3' : contiguousFrom a.itemsize ns ts = some t := b3
            simp [contiguousFrom, b3', mul_comm]
          · intro i hi
            rw [show ({ b with shape := a.shape, strides := (n : Int) * b.strides.getD 0 0 :: b.strides } : Nd).valueAt
              = b.valueAt from valueAt_same rfl]
            obtain ⟨h1, h2, h3⟩ := hrows i hi
            rw [valueAt_cons]
            refine ⟨(v i).items, h1, h2, ?_⟩
            intro j hj
            rw [h2] at hj
            have hlt : i * n + j < (grid (fun i j => pos[i]?.getD 0 + (j : Int) * s) pos.length n).length := by
              rw [grid_length]
              calc i * n + j < (i + 1) * n := by ring_nf; omega
                _ ≤ pos.length * n := Nat.mul_le_mul_right _ hi
            have h4 := b9 (i * n + j) hlt
            have hn : 0 < n := by omega
            have q1 : (i * n + j) / n = i := by
              rw [Nat.mul_comm, Nat.mul_add_div hn, Nat.div_eq_of_lt hj, Nat.add_zero]
            have q2 : (i * n + j) % n = j := by
              rw [Nat.mul_comm, Nat.mul_add_mod, Nat.mod_eq_of_lt hj]
            simp only [q1, q2] at h4
            rw [List.getElem?_eq_getElem (l := (v i).items) (by rw [h2]; exact hj), Option.getD_some] at h4
            rw [← h4]
            congr 1
            push_cast; ring

/-- The contiguous array has the same value. -/
theorem contiguous_ok {a : Nd} {m : Nat} {ns : List Nat} {v : Val} (hsh : a.shape = m :: ns)
    (hls : a.strides.length = a.shape.length) (hv : a.toVal = ok v) :
    ∃ b : Nd, a.contiguous = ok b ∧ b.shape = a.shape ∧ b.strides.length = b.shape.length ∧
      b.iscontiguous = true ∧ b.toVal = ok v ∧ b.itemsize = a.itemsize ∧ b.decode = a.decode ∧
      b.dtype = a.dtype ∧ b.params = a.params := by
  unfold contiguous
  by_cases hc : a.iscontiguous = true
  · rw [if_pos hc]
    exact ⟨a, rfl, rfl, hls, hc, hv, rfl, rfl, rfl, rfl⟩
  · rw [if_neg hc]
    obtain ⟨s0, ss, hst⟩ : ∃ s0 ss, a.strides = s0 :: ss := by
      cases h : a.strides with
      | nil => rw [h, hsh] at hls; simp at hls
      | cons s0 ss => exact ⟨s0, ss, rfl⟩
    have g1 : a.shape.getD 0 0 = m := by rw [hsh]; rfl
    have g2 : a.strides.getD 0 0 = s0 := by rw [hst]; rfl
    rw [g1, g2, init_ok (by simp [alloc_length]), bind_ok]
    rw [toVal, hsh, hst] at hv
    obtain ⟨vs, rfl, hvl, hv⟩ := valueAt_cons.mp hv
    obtain ⟨b, e, hbs, t, ts, b1, b2, b3, b4, b5, b6, b7, b8, b9⟩ := contiguousNext_ok a.shape.length a m ns s0 ss
      ((List.range m).map (fun (i : Nat) => (i : Int) * s0)) (fun i => vs[i]?.getD .null) (Nat.le_refl _) hsh hst
      (by rw [hst, hsh] at hls; simpa using hls)
      (by
        intro i hi
        have hi' : i < vs.length := by simpa [hvl] using hi
        simp only [List.getElem_map, List.getElem_range]
        rw [hv i hi', List.getElem?_eq_getElem hi', Option.getD_some])
    refine ⟨b, e, hbs, ?_, ?_, ?_, b5, b6, b7, b8⟩
    · rw [b1, hbs, hsh]; simp [b2]
    · rw [iscontiguous, hbs, hsh, b1, contiguousFrom_cons, b5]; exact b3
    · rw [toVal, hbs, hsh, b1, b4, valueAt_cons]
      refine ⟨vs, rfl, hvl, ?_⟩
      intro i hi
      have := b9 i (by simpa [hvl] using hi)
      simp only [List.getElem?_eq_getElem hi, Option.getD_some] at this
      rw [← this, zero_add]

end Nd
end Awk
