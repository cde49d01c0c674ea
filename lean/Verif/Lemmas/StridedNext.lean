import Verif.Lemmas.StridedCopy
/-
Helper lemmas about NumPy arrays: slices with index arrays.
-/

namespace Awk
open R Spec
namespace Nd

/-- What a slice of `n` rows (with values `vals`, and positions `adv` in the index arrays) gives. -/
def NextOk (a : Nd) (ns : List Nat) (items : List SliceItem) (first : Bool) (n : Nat)
    (adv : Nat → Option Nat) (vals : Nat → Val) (r : R Nd) : Prop :=
  (fitsShape ns items = true ∧
    ∃ (out : Nd) (l0 : Nat) (t : Int) (ts : List Int),
      r = ok out ∧ out.shape = l0 :: slicedShape ns first items ∧ out.strides = t :: ts ∧
      ts.length = (slicedShape ns first items).length ∧ out.byteoffset = 0 ∧
      out.itemsize = a.itemsize ∧ out.decode = a.decode ∧
      ∀ i, i < n → ∃ w, select items (adv i) (vals i) = some w ∧
        out.valueAt (slicedShape ns first items) ts ((i : Int) * t) = ok w) ∨
  (fitsShape ns items = false ∧ r.IsErr)

theorem select_nil (adv : Option Nat) (v : Val) : select [] adv v = some v := rfl

theorem null_ok {a : Nd} {m : Nat} {ns : List Nat} {s0 : Int} {ss : List Int} {carry : List Int}
    {vals : Nat → Val} {adv : Nat → Option Nat} {first : Bool}
    (hsh : a.shape = m :: ns) (hst : a.strides = s0 :: ss) (hls : ss.length = ns.length)
    (hc : contiguousFrom a.itemsize ns ss = some s0)
    (hv : ∀ i (h : i < carry.length), a.valueAt ns ss (a.byteoffset + carry[i] * s0) = ok (vals i)) :
    NextOk a ns [] first carry.length adv vals
      (NumpyArray_getitem_next_null (allocBytes (carry.length * s0)) a.ptr a.byteoffset carry.length
        s0 carry >>= fun ptr =>
      ok { a with
        ptr := ptr
        shape := carry.length :: a.shape.tail
        strides := s0 :: a.strides.tail
        byteoffset := 0 }) := by
  have hx := contiguousFrom_eq hls hc
  subst hx
  obtain ⟨ptr, h1, h2, h3⟩ := copy_ok (fromptr := a.ptr)
    (out := allocBytes (carry.length * ((a.itemsize * ns.prod : Nat) : Int)))
    (n := carry.length) (K := a.itemsize * ns.prod)
    (fun i => a.byteoffset + carry[i]?.getD 0 * ((a.itemsize * ns.prod : Nat) : Int))
    (pos := fun (i : Nat) => rd carry (i : Int))
    (shift := fun p => a.byteoffset + p * ((a.itemsize * ns.prod : Nat) : Int))
    (fun i hi => ⟨_, rd_nat_ok hi, by simp [hi]⟩)
    (by rw [allocBytes, List.length_replicate, ← Nat.cast_mul, Int.toNat_natCast])
    (fun i j hi hj => by
      have := block_read hls hc (hv i hi) j hj
      simpa [hi] using this)
  unfold NumpyArray_getitem_next_null
  rw [h1, bind_ok]
  refine Or.inl ⟨rfl, _, carry.length, ((a.itemsize * ns.prod : Nat) : Int), ss, rfl, ?_, ?_, ?_, rfl, rfl, rfl, ?_⟩
  · simp [slicedShape, hsh]
  · simp [hst]
  · simpa [slicedShape] using hls
  · intro i hi
    refine ⟨_, rfl, ?_⟩
    simp only [slicedShape]
    rw [← hv i hi]
    refine block_same (a := a) rfl rfl hls hc ?_
    intro j hj
    have := h3 i j hi hj
    simpa [hi] using this

theorem next_newaxis {a : Nd} {ns : List Nat} {items : List SliceItem} {first : Bool} {n length : Nat}
    {adv : Nat → Option Nat} {vals : Nat → Val} {r : R Nd} (h : NextOk a ns items first n adv vals r) :
    NextOk a ns (.newaxis :: items) first n adv vals (r >>= fun out => ok (afterNewaxis length out)) := by
  rcases h with ⟨hf, out, l0, t, ts, e1, e2, e3, e4, e5, e6, e7, e8⟩ | ⟨hf, e, he⟩
  · rw [e1, bind_ok]
    refine Or.inl ⟨by simpa [fitsShape] using hf, _, length, t, t :: ts, rfl, ?_, ?_, ?_, e5, e6, e7, ?_⟩
    · simp [afterNewaxis, slicedShape, e2]
    · simp [afterNewaxis, e3]
    · simp [slicedShape, e4]
    · intro i hi
      obtain ⟨w, h1, h2⟩ := e8 i hi
      refine ⟨.list [w], by simp [select, h1], ?_⟩
      rw [show (afterNewaxis length out).valueAt = out.valueAt from valueAt_same rfl]
      simp only [slicedShape]
      rw [valueAt_cons]
      refine ⟨[w], rfl, rfl, ?_⟩
      intro j hj
      obtain rfl : j = 0 := by simpa using hj
      simpa using h2
  · exact Or.inr ⟨by simpa [fitsShape] using hf, e, by rw [he]; rfl⟩

theorem next_at {a : Nd} {n : Nat} {ns : List Nat} {rest : List SliceItem} {first : Bool} {N length : Nat}
    {adv : Nat → Option Nat} {vals : Nat → Val} {r : R Nd} {i : Int} {p : Nat}
    (hp : regAt i n = some p) (hvl : ∀ i, i < N → vals i = .list (vals i).items ∧ (vals i).items.length = n)
    (h : NextOk (a.flat 0) ns rest first N adv (fun i => (vals i).items[p]?.getD .null) r) :
    NextOk a (n :: ns) (.at i :: rest) first N adv vals (r >>= fun out => ok (afterAt length out)) := by
  rcases h with ⟨hf, out, l0, t, ts, e1, e2, e3, e4, e5, e6, e7, e8⟩ | ⟨hf, e, he⟩
  · rw [e1, bind_ok]
    refine Or.inl ⟨by simpa [fitsShape, hp] using hf, _, length, t, ts, rfl, ?_, e3, e4, e5, e6, e7, ?_⟩
    · simp [afterAt, slicedShape, e2]
    · intro k hk
      obtain ⟨w, h1, h2⟩ := e8 k hk
      obtain ⟨g1, g2⟩ := hvl k hk
      have hpn := regAt_lt hp
      refine ⟨w, ?_, ?_⟩
      · rw [g1]
        simp only [select, selItem, selList]
        rw [pyGet?_regAt, g2, hp]
        simp only [Option.bind_some]
        rw [List.getElem?_eq_getElem (by omega)]
        simp only at h1
        rw [List.getElem?_eq_getElem (l := (vals k).items) (by omega)] at h1
        exact h1
      · rw [show (afterAt length out).valueAt = out.valueAt from valueAt_same rfl]
        exact h2
  · exact Or.inr ⟨by simp [fitsShape, hf], e, by rw [he]; rfl⟩

theorem next_range {a : Nd} {n : Nat} {ns : List Nat} {rest : List SliceItem} {first : Bool} {N length : Nat}
    {adv : Nat → Option Nat} {vals : Nat → Val} {r : R Nd} {start stop : Option Int} {step lo : Int}
    (hs : step ≠ 0) (hvl : ∀ i, i < N → vals i = .list (vals i).items ∧ (vals i).items.length = n)
    (hlo : ∀ j (h : j < (pySlicePositions n start stop step).length),
        (pySlicePositions n start stop step)[j] = lo + (j : Int) * step)
    (h : NextOk (a.flat 0) ns rest first (N * (pySlicePositions n start stop step).length)
      (fun k => adv (k / (pySlicePositions n start stop step).length))
      (fun k => (vals (k / (pySlicePositions n start stop step).length)).items[
        (lo + ((k % (pySlicePositions n start stop step).length : Nat) : Int) * step).toNat]?.getD .null) r) :
    NextOk a (n :: ns) (.range start stop step :: rest) first N adv vals
      (r >>= fun out => ok (afterRangeCopy length (pySlicePositions n start stop step).length out)) := by
  rcases h with ⟨hf, out, l0, t, ts, e1, e2, e3, e4, e5, e6, e7, e8⟩ | ⟨hf, e, he⟩
  · rw [e1, bind_ok]
    refine Or.inl ⟨by simpa [fitsShape] using hf, _, length,
      ((pySlicePositions n start stop step).length : Int) * t, t :: ts, rfl, ?_, ?_, ?_, e5, e6, e7, ?_⟩
    · simp [afterRangeCopy, slicedShape, e2]
    · simp [afterRangeCopy, e3]
    · simp [slicedShape, e4]
    · intro i hi
      obtain ⟨g1, g2⟩ := hvl i hi
      rw [show (afterRangeCopy length (pySlicePositions n start stop step).length out).valueAt
        = out.valueAt from valueAt_same rfl]
      have hps := pySlice_get (vs := (vals i).items) (start := start) (stop := stop) hs
      have key : ∀ j, j < (pySlicePositions n start stop step).length → ∃ w,
          ((pySlice (vals i).items start stop step)[j]?.bind (select rest (adv i))) = some w ∧
          out.valueAt (slicedShape ns first rest) ts
            ((i : Int) * (((pySlicePositions n start stop step).length : Int) * t) + (j : Int) * t) = ok w := by
        intro j hj
        have hlt : i * (pySlicePositions n start stop step).length + j
            < N * (pySlicePositions n start stop step).length := by
          calc _ < (i + 1) * (pySlicePositions n start stop step).length := by ring_nf; omega
            _ ≤ _ := Nat.mul_le_mul_right _ hi
        obtain ⟨w, h1, h2⟩ := e8 _ hlt
        have q1 : (i * (pySlicePositions n start stop step).length + j) / (pySlicePositions n start stop step).length = i := by
          rw [Nat.mul_comm, Nat.mul_add_div (by omega), Nat.div_eq_of_lt hj, Nat.add_zero]
        have q2 : (i * (pySlicePositions n start stop step).length + j) % (pySlicePositions n start stop step).length = j := by
          rw [Nat.mul_comm, Nat.mul_add_mod, Nat.mod_eq_of_lt hj]
        simp only [q1, q2] at h1
        refine ⟨w, ?_, ?_⟩
        · have hj' : j < (pySlice (vals i).items start stop step).length := by rw [hps.1, g2]; exact hj
          obtain ⟨hin, hget⟩ := hps.2 j hj' (by rw [g2]; exact hj)
          rw [List.getElem?_eq_getElem hj', Option.bind_some, hget]
          have hpos : (pySlicePositions ((vals i).items.length : Nat) start stop step)[j]'(by rw [g2]; exact hj)
              = lo + (j : Int) * step := by
            rw [← hlo j hj]; simp [g2]
          rw [← hpos] at h1
          rw [List.getElem?_eq_getElem hin, Option.getD_some] at h1
          exact h1
        · rw [← h2]
          congr 1
          push_cast; ring
      haveI : Nonempty Val := ⟨.null⟩
      choose! W hW1 hW2 using key
      refine ⟨.list ((List.range (pySlicePositions n start stop step).length).map W), ?_, ?_⟩
      · rw [g1]
        simp only [select, selItem, selList]
        rw [mapM_some (ys := (List.range (pySlicePositions n start stop step).length).map W)]
        · rfl
        · simp [hps.1, g2]
        · intro j hj hj'
          have hj'' : j < (pySlicePositions n start stop step).length := by simpa using hj'
          have := hW1 j hj''
          rw [List.getElem?_eq_getElem hj, Option.bind_some] at this
          simpa using this
      · simp only [slicedShape]
        rw [valueAt_cons]
        refine ⟨_, rfl, by simp, ?_⟩
        intro j hj
        simp only [List.getElem_map, List.getElem_range]
        exact hW2 j (by simpa using hj)
  · exact Or.inr ⟨by simpa [fitsShape] using hf, e, by rw [he]; rfl⟩

theorem arrayStrides_nest {b : Nd} {SH : List Nat} {t : Int} {ts : List Int} (shape : List Nat) (w : Nat → Val) :
    (arrayStrides shape (t :: ts)).length = shape.length + ts.length + 1 ∧
    (arrayStrides shape (t :: ts)).getD 0 0 = (shape.prod : Int) * t ∧
    ∀ base : Nat, (∀ j, j < shape.prod → b.valueAt SH ts (((base + j : Nat) : Int) * t) = ok (w (base + j))) →
      b.valueAt (shape ++ SH) (arrayStrides shape (t :: ts)).tail ((base : Int) * t)
        = ok (nest shape ((List.range shape.prod).map (fun j => w (base + j)))) := by
  induction shape with
  | nil =>
    refine ⟨by simp [arrayStrides], by simp [arrayStrides], ?_⟩
    intro base h
    have := h 0 (by simp)
    simpa [arrayStrides, nest] using this
  | cons n ns ih =>
    obtain ⟨i1, i2, i3⟩ := ih
    obtain ⟨x, xs, hx⟩ : ∃ x xs, arrayStrides ns (t :: ts) = x :: xs := by
      cases h : arrayStrides ns (t :: ts) with
      | nil => rw [h] at i1; simp at i1
      | cons x xs => exact ⟨x, xs, rfl⟩
    have hx0 : x = (ns.prod : Int) * t := by rw [hx] at i2; simpa using i2
    refine ⟨?_, ?_, ?_⟩
    · simp [arrayStrides, i1]; omega
    · simp [arrayStrides, hx, hx0]; ring
    · intro base h
      simp only [arrayStrides, List.tail_cons, List.cons_append, nest]
      rw [hx] at i3 ⊢
      simp only [List.tail_cons] at i3
      rw [valueAt_cons]
      refine ⟨_, rfl, by simp, ?_⟩
      intro i hi
      have hi : i < n := by simpa using hi
      have hle : ∀ j, j < ns.prod → i * ns.prod + j < n * ns.prod := by
        intro j hj
        calc _ < (i + 1) * ns.prod := by ring_nf; omega
          _ ≤ _ := Nat.mul_le_mul_right _ hi
      have := i3 (base + i * ns.prod) (by
        intro j hj
        have := h (i * ns.prod + j) (by simpa using hle j hj)
        rw [← Nat.add_assoc] at this
        exact this)
      simp only [List.getElem_map, List.getElem_range]
      rw [hx0, show (base : Int) * t + (i : Int) * ((ns.prod : Int) * t) = ((base + i * ns.prod : Nat) : Int) * t by
        push_cast; ring, this]
      congr 2
      apply List.ext_getElem
      · simp only [List.length_map, List.length_range, List.length_take, List.length_drop, List.prod_cons]
        rcases Nat.eq_zero_or_pos ns.prod with h0 | h0
        · simp [h0]
        · have := hle (ns.prod - 1) (by omega)
          omega
      · intro j h1 h2
        simp [Nat.add_assoc]

theorem next_array {a : Nd} {n : Nat} {ns : List Nat} {rest : List SliceItem} {N length : Nat}
    {adv : Nat → Option Nat} {vals : Nat → Val} {r : R Nd} {shape : List Nat} {flat : List Int} {p : Nat → Nat}
    (hadv : ∀ i, i < N → adv i = none)
    (hp : ∀ j (h : j < flat.length), regAt flat[j] n = some (p j)) (hprod : flat.length = shape.prod)
    (hvl : ∀ i, i < N → vals i = .list (vals i).items ∧ (vals i).items.length = n)
    (h : NextOk (a.flat 0) ns rest false (N * flat.length) (fun k => some (k % flat.length))
      (fun k => (vals (k / flat.length)).items[p (k % flat.length)]?.getD .null) r) :
    NextOk a (n :: ns) (.array shape flat :: rest) true N adv vals
      (r >>= fun out => ok (afterArray length shape out)) := by
  have hall : flat.all (fun i => (regAt i n).isSome) = true := by
    rw [List.all_eq_true]
    intro x hx
    obtain ⟨j, hj, rfl⟩ := List.getElem_of_mem hx
    simp [hp j hj]
  rcases h with ⟨hf, out, l0, t, ts, e1, e2, e3, e4, e5, e6, e7, e8⟩ | ⟨hf, e, he⟩
  · rw [e1, bind_ok]
    haveI : Nonempty Val := ⟨.null⟩
    choose! W hW1 hW2 using e8
    obtain ⟨k1, k2, k3⟩ := arrayStrides_nest (b := out) (SH := slicedShape ns false rest) (t := t) (ts := ts) shape W
    refine Or.inl ⟨by simp [fitsShape, hf, hall], _, length, (shape.prod : Int) * t,
      (arrayStrides shape (t :: ts)).tail, rfl, ?_, ?_, ?_, e5, e6, e7, ?_⟩
    · simp [afterArray, slicedShape, e2]
    · simp only [afterArray, e3]
      rw [← k2]
      cases h : arrayStrides shape (t :: ts) with
      | nil => rw [h] at k1; simp at k1
      | cons x xs => rfl
    · simp [slicedShape, k1, e4]
    · intro i hi
      obtain ⟨g1, g2⟩ := hvl i hi
      have hlt : ∀ j, j < flat.length → i * flat.length + j < N * flat.length := by
        intro j hj
        calc _ < (i + 1) * flat.length := by ring_nf; omega
          _ ≤ _ := Nat.mul_le_mul_right _ hi
      have hsel : ∀ j (hj : j < flat.length),
          ((flat[j]?.bind (pyGet? (vals i).items)).bind (select rest (some j))) = some (W (i * flat.length + j)) := by
        intro j hj
        have h1 := hW1 _ (hlt j hj)
        have q1 : (i * flat.length + j) / flat.length = i := by
          rw [Nat.mul_comm, Nat.mul_add_div (by omega), Nat.div_eq_of_lt hj, Nat.add_zero]
        have q2 : (i * flat.length + j) % flat.length = j := by
          rw [Nat.mul_comm, Nat.mul_add_mod, Nat.mod_eq_of_lt hj]
        simp only [q1, q2] at h1
        rw [List.getElem?_eq_getElem hj, Option.bind_some, pyGet?_regAt, g2, hp j hj, Option.bind_some]
        have := regAt_lt (hp j hj)
        rw [List.getElem?_eq_getElem (by omega), Option.bind_some]
        rw [List.getElem?_eq_getElem (by omega), Option.getD_some] at h1
        exact h1
      refine ⟨nest shape ((List.range flat.length).map (fun j => W (i * flat.length + j))), ?_, ?_⟩
      · rw [g1, hadv i hi]
        simp only [select, selItem, selList]
        rw [mapM_some (ys := (List.range flat.length).map (fun j => W (i * flat.length + j)))]
        · rfl
        · simp
        · intro j hj hj'
          have hj'' : j < flat.length := by simpa using hj
          have := hsel j hj''
          simpa [Val.items] using this
      · rw [show (afterArray length shape out).valueAt = out.valueAt from valueAt_same rfl]
        have := k3 (i * shape.prod) (by
          intro j hj
          rw [← hprod] at hj ⊢
          exact hW2 _ (hlt j hj))
        simp only [slicedShape, if_true]
        rw [hprod, ← this]
        congr 1
        push_cast; ring
  · exact Or.inr ⟨by simp [fitsShape, hf], e, by rw [he]; rfl⟩

theorem next_arrayAdvanced {a : Nd} {n : Nat} {ns : List Nat} {rest : List SliceItem} {N length : Nat}
    {adv : Nat → Option Nat} {vals : Nat → Val} {r : R Nd} {shape : List Nat} {flat : List Int} {p q : Nat → Nat}
    (hadv : ∀ i, i < N → adv i = some (q i) ∧ q i < flat.length)
    (hp : ∀ j (h : j < flat.length), regAt flat[j] n = some (p j))
    (hvl : ∀ i, i < N → vals i = .list (vals i).items ∧ (vals i).items.length = n)
    (h : NextOk (a.flat 0) ns rest false N adv
      (fun k => (vals k).items[p (q k)]?.getD .null) r) :
    NextOk a (n :: ns) (.array shape flat :: rest) false N adv vals
      (r >>= fun out => ok (afterAt length out)) := by
  have hall : flat.all (fun i => (regAt i n).isSome) = true := by
    rw [List.all_eq_true]
    intro x hx
    obtain ⟨j, hj, rfl⟩ := List.getElem_of_mem hx
    simp [hp j hj]
  rcases h with ⟨hf, out, l0, t, ts, e1, e2, e3, e4, e5, e6, e7, e8⟩ | ⟨hf, e, he⟩
  · rw [e1, bind_ok]
    refine Or.inl ⟨by simp [fitsShape, hf, hall], _, length, t, ts, rfl, ?_, e3, ?_, e5, e6, e7, ?_⟩
    · simp [afterAt, slicedShape, e2]
    · simpa [slicedShape] using e4
    · intro i hi
      obtain ⟨g1, g2⟩ := hvl i hi
      obtain ⟨d1, d2⟩ := hadv i hi
      obtain ⟨w, h1, h2⟩ := e8 i hi
      refine ⟨w, ?_, ?_⟩
      · rw [g1, d1]
        simp only [select, selItem, selList]
        rw [List.getElem?_eq_getElem d2, Option.bind_some, pyGet?_regAt, g2, hp _ d2, Option.bind_some]
        have := regAt_lt (hp _ d2)
        rw [List.getElem?_eq_getElem (by omega), Option.bind_some]
        simp only at h1
        rw [List.getElem?_eq_getElem (l := (vals i).items) (by omega), Option.getD_some, d1] at h1
        exact h1
      · rw [show (afterAt length out).valueAt = out.valueAt from valueAt_same rfl]
        simpa [slicedShape] using h2
  · exact Or.inr ⟨by simp [fitsShape, hf], e, by rw [he]; rfl⟩

theorem regularize_arrayslice_eq {flat : List Int} {n : Nat} :
    (∃ p : Nat → Nat, regularize_arrayslice flat flat.length n
        = ok ((List.range flat.length).map (fun (j : Nat) => (p j : Int))) ∧
      ∀ j (h : j < flat.length), regAt flat[j] n = some (p j)) ∨
    (flat.all (fun i => (regAt i n).isSome) = false ∧ (regularize_arrayslice flat flat.length n).IsErr) := by
  unfold regularize_arrayslice
  have reg : ∀ x : Int, (∃ p : Nat, regAt x n = some p ∧
      (if x < 0 then x + (n : Int) else x) = (p : Int) ∧
      ¬ ((if x < 0 then x + (n : Int) else x) < 0 ∨ (if x < 0 then x + (n : Int) else x) ≥ (n : Int))) ∨
      (regAt x n = none ∧
      ((if x < 0 then x + (n : Int) else x) < 0 ∨ (if x < 0 then x + (n : Int) else x) ≥ (n : Int))) := by
    intro x
    unfold regAt
    by_cases h : 0 ≤ (if x < 0 then x + (n : Int) else x) ∧ (if x < 0 then x + (n : Int) else x) < n
    · left
      exact ⟨_, by simp only [h, and_self, if_true], (Int.toNat_of_nonneg h.1).symm, by omega⟩
    · right
      exact ⟨by simp only [if_neg h], by omega⟩
  by_cases hall : ∀ j (h : j < flat.length), (regAt flat[j] n).isSome = true
  · left
    refine ⟨fun j => ((flat[j]?.bind (fun x => regAt x n)).getD 0), ?_, ?_⟩
    · suffices hs : ∀ m, m ≤ flat.length → forN m (fun (i : Nat) flathead =>
          rd flathead (i : Int) >>= fun x =>
          let x := if x < 0 then x + (n : Int) else x
          if x < 0 ∨ x ≥ (n : Int) then err "index out of range"
          else wr flathead (i : Int) x) flat
          = ok ((List.range m).map (fun (j : Nat) => (((flat[j]?.bind (fun x => regAt x n)).getD 0 : Nat) : Int)) ++ flat.drop m) by
        rw [hs _ (Nat.le_refl _)]; simp
      intro m
      induction m with
      | zero => intro _; simp
      | succ m ih =>
        intro hm
        rw [forN_succ, ih (by omega), bind_ok]
        have hd : flat.drop m = flat[m] :: flat.drop (m + 1) := List.drop_eq_getElem_cons (by omega)
        rw [rd_nat_ok (by simp; omega), bind_ok]
        have hg : ((List.range m).map (fun (j : Nat) => (((flat[j]?.bind (fun x => regAt x n)).getD 0 : Nat) : Int))
            ++ flat.drop m)[m]'(by simp; omega) = flat[m] := by
          rw [List.getElem_append_right (by simp)]; simp
        rw [hg]
        rcases reg flat[m] with ⟨p, h1, h2, h3⟩ | ⟨h1, _⟩
        · simp only [if_neg h3]
          rw [wr_nat_ok (by simp; omega), h2]
          congr 1
          rw [List.set_append_right _ _ (by simp)]
          simp only [List.length_map, List.length_range, Nat.sub_self]
          rw [hd]
          simp only [List.set_cons_zero, List.range_succ, List.map_append, List.map_cons, List.map_nil,
            List.append_assoc, List.cons_append, List.nil_append]
          congr 2
          rw [List.getElem?_eq_getElem (by omega)]
          simp [h1]
        · have := hall m (by omega)
          simp [h1] at this
    · intro j h
      have := hall j h
      simp only [List.getElem?_eq_getElem h, Option.bind_some]
      cases h' : regAt flat[j] n with
      | none => simp [h'] at this
      | some p => rfl
  · right
    push Not at hall
    obtain ⟨j, hj, hn⟩ := hall
    refine ⟨?_, ?_⟩
    · rw [Bool.eq_false_iff]
      intro h
      rw [List.all_eq_true] at h
      exact hn (h _ (List.getElem_mem hj))
    · have : ∀ m, j < m → m ≤ flat.length → (forN m (fun (i : Nat) flathead =>
          rd flathead (i : Int) >>= fun x =>
          let x := if x < 0 then x + (n : Int) else x
          if x < 0 ∨ x ≥ (n : Int) then err "index out of range"
          else wr flathead (i : Int) x) flat).IsErr := by
        have inv : ∀ m, m ≤ flat.length → (∃ fl, forN m (fun (i : Nat) flathead =>
            rd flathead (i : Int) >>= fun x =>
            let x := if x < 0 then x + (n : Int) else x
            if x < 0 ∨ x ≥ (n : Int) then err "index out of range"
            else wr flathead (i : Int) x) flat = ok fl ∧ fl.length = flat.length ∧
            ∀ k, m ≤ k → fl[k]? = flat[k]?) ∨ (forN m (fun (i : Nat) flathead =>
            rd flathead (i : Int) >>= fun x =>
            let x := if x < 0 then x + (n : Int) else x
            if x < 0 ∨ x ≥ (n : Int) then err "index out of range"
            else wr flathead (i : Int) x) flat).IsErr := by
          intro m
          induction m with
          | zero => intro _; left; exact ⟨flat, rfl, rfl, fun _ _ => rfl⟩
          | succ m ih =>
            intro hm
            rcases ih (by omega) with ⟨fl, h1, h2, h3⟩ | ⟨e, he⟩
            · rw [forN_succ, h1, bind_ok, rd_nat_ok (by omega), bind_ok]
              by_cases hc : (if fl[m] < 0 then fl[m] + (n : Int) else fl[m]) < 0 ∨
                  (if fl[m] < 0 then fl[m] + (n : Int) else fl[m]) ≥ (n : Int)
              · right; simp only [if_pos hc]; exact ⟨_, rfl⟩
              · left
                simp only [if_neg hc]
                rw [wr_nat_ok (by omega)]
                refine ⟨_, rfl, by simp [h2], ?_⟩
                intro k hk
                rw [List.getElem?_set_ne (by omega)]
                exact h3 k (by omega)
            · right
              rw [forN_succ, he]
              exact ⟨e, rfl⟩
        intro m
        induction m with
        | zero => intro h; omega
        | succ m ih =>
          intro h1 h2
          by_cases hjm : j < m
          · obtain ⟨e, he⟩ := ih hjm (by omega)
            rw [forN_succ, he]
            exact ⟨e, rfl⟩
          · obtain rfl : j = m := by omega
            rcases inv j (by omega) with ⟨fl, g1, g2, g3⟩ | ⟨e, he⟩
            · rw [forN_succ, g1, bind_ok, rd_nat_ok (by omega), bind_ok]
              have hfl : fl[j]'(by omega) = flat[j] := by
                have := g3 j (Nat.le_refl _)
                rw [List.getElem?_eq_getElem (by omega), List.getElem?_eq_getElem (by omega)] at this
                simpa using this
              rw [hfl]
              rcases reg flat[j] with ⟨p, k1, _⟩ | ⟨_, k2⟩
              · simp [k1] at hn
              · simp only [if_pos k2]; exact ⟨_, rfl⟩
            · rw [forN_succ, he]
              exact ⟨e, rfl⟩
      exact this _ hj (Nat.le_refl _)

theorem at_carry {carry out : List Int} {skip at_ : Int} (h : out.length = carry.length) :
    NumpyArray_getitem_next_at out carry carry.length skip at_
      = ok ((List.range carry.length).map (fun i => skip * carry[i]?.getD 0 + at_)) :=
  forN_fill_eq (fun i => skip * carry[i]?.getD 0 + at_) h (fun i hi => by
    rw [rd_nat_ok hi, bind_ok]; simp [hi])

theorem range_carry {carry out : List Int} {L : Nat} {skip start step : Int} (h : out.length = carry.length * L) :
    NumpyArray_getitem_next_range out carry carry.length L skip start step
      = ok (grid (fun i j => skip * carry[i]?.getD 0 + start + (j : Int) * step) carry.length L) := by
  have := grid_ok (f := fun i j => rd carry (i : Int) >>= fun c => ok (skip * c + start + (j : Int) * step))
    (fun i j => skip * carry[i]?.getD 0 + start + (j : Int) * step) h (fun i j hi hj => by
      rw [rd_nat_ok (by omega), bind_ok]; simp [hi])
  rw [← this]
  unfold NumpyArray_getitem_next_range
  apply forN_congr; intro i hi b
  apply forN_congr; intro j hj b
  rw [R.bind_assoc]; rfl

theorem range_adv {carry adv out : List Int} {L : Nat} (ha : adv.length = carry.length)
    (h : out.length = carry.length * L) :
    NumpyArray_getitem_next_range_advanced out adv carry.length L
      = ok (grid (fun i _ => adv[i]?.getD 0) carry.length L) := by
  have := grid_ok (f := fun i _ => rd adv (i : Int)) (fun i _ => adv[i]?.getD 0) h (fun i j hi hj => by
      rw [rd_nat_ok (by omega)]; simp [show i < adv.length by omega])
  exact this

theorem array_carry {carry flathead out : List Int} {skip : Int} (h : out.length = carry.length * flathead.length) :
    NumpyArray_getitem_next_array_carry out carry flathead carry.length flathead.length skip
      = ok (grid (fun i j => skip * carry[i]?.getD 0 + flathead[j]?.getD 0) carry.length flathead.length) := by
  have := grid_ok (f := fun i j => rd carry (i : Int) >>= fun c => rd flathead (j : Int) >>= fun x => ok (skip * c + x))
    (fun i j => skip * carry[i]?.getD 0 + flathead[j]?.getD 0) h (fun i j hi hj => by
      rw [rd_nat_ok hi, bind_ok, rd_nat_ok hj, bind_ok]; simp [hi, hj])
  rw [← this]
  unfold NumpyArray_getitem_next_array_carry
  apply forN_congr; intro i hi b
  apply forN_congr; intro j hj b
  simp only [R.bind_assoc, bind_ok]

theorem array_adv {out : List Int} {n m : Nat} (h : out.length = n * m) :
    NumpyArray_getitem_next_array_advanced_out out n m = ok (grid (fun _ (j : Nat) => (j : Int)) n m) := by
  have := grid_ok (f := fun _ j => ok (j : Int)) (fun _ (j : Nat) => (j : Int)) h (fun i j hi hj => rfl)
  simpa only [bind_ok, NumpyArray_getitem_next_array_advanced_out] using this

theorem array_advanced_carry {carry adv flathead out : List Int} {skip : Int} (h : out.length = carry.length)
    (ha : adv.length = carry.length)
    (hin : ∀ i (h : i < adv.length), 0 ≤ adv[i] ∧ adv[i] < flathead.length) :
    NumpyArray_getitem_next_array_advanced out carry adv flathead carry.length skip
      = ok ((List.range carry.length).map (fun i => skip * carry[i]?.getD 0 +
          flathead[(adv[i]?.getD 0).toNat]?.getD 0)) :=
  forN_fill_eq (fun i => skip * carry[i]?.getD 0 + flathead[(adv[i]?.getD 0).toNat]?.getD 0) h (fun i hi => by
    have := hin i (by omega)
    rw [rd_nat_ok hi, bind_ok, rd_nat_ok (by omega), bind_ok, rd_ok this.1 this.2, bind_ok]
    have h2 : adv[i].toNat < flathead.length := by omega
    simp [hi, show i < adv.length by omega, h2])

/-- The advanced index of every row. -/
def advAt (adv : Adv) (i : Nat) : Option Nat := adv.map (fun A => (A[i]?.getD 0).toNat)

/-- The advanced index has an entry of the index arrays for every row. -/
def AdvOk (adv : Adv) (n F : Nat) : Prop :=
  ∀ A, adv = some A → A.length = n ∧ ∀ i (h : i < A.length), 0 ≤ A[i] ∧ A[i] < (F : Int)

theorem rangeCarry_ok {carry : List Int} {adv : Adv} {n L F : Nat} {lo step : Int}
    (ha : AdvOk adv carry.length F) :
    ∃ adv' : Adv, rangeCarry carry adv (lo, step, L) n
        = ok (grid (fun i j => (n : Int) * carry[i]?.getD 0 + lo + (j : Int) * step) carry.length L, adv') ∧
      AdvOk adv' (carry.length * L) F ∧ adv'.isNone = adv.isNone ∧
      ∀ k, k < carry.length * L → advAt adv' k = advAt adv (k / L) := by
  unfold rangeCarry
  simp only
  rw [range_carry (by simp only [alloc, List.length_replicate, Int.toNat_natCast]), bind_ok]
  cases adv with
  | none => exact ⟨none, rfl, fun A h => by simp at h, rfl, fun k hk => rfl⟩
  | some A =>
    obtain ⟨h1, h2⟩ := ha A rfl
    by_cases he : A.isEmpty = true
    · simp only [he, if_true]
      have hA : A = [] := by simpa using he
      subst hA
      refine ⟨some [], rfl, ?_, rfl, ?_⟩
      · intro A h
        simp only [Option.some.injEq] at h
        subst h
        simp at h1
        simp [← h1]
      · intro k hk
        simp at h1
        rw [← h1] at hk
        simp at hk
    · simp only [he, if_false, Bool.false_eq_true]
      rw [range_adv h1 (by simp only [alloc, List.length_replicate, Int.toNat_natCast]), bind_ok]
      refine ⟨_, rfl, ?_, rfl, ?_⟩
      · intro A' h
        simp only [Option.some.injEq] at h
        subst h
        refine ⟨grid_length _ _ _, ?_⟩
        intro k hk
        have hk' := hk
        rw [grid_length] at hk'
        have hL : 0 < L := by
          rcases Nat.eq_zero_or_pos L with h | h
          · rw [h] at hk'; simp at hk'
          · exact h
        have hi : k / L < carry.length := by rw [Nat.div_lt_iff_lt_mul hL]; exact hk'
        have hg := grid_get (fun i _ => A[i]?.getD 0) hi (Nat.mod_lt k hL)
        rw [show k / L * L + k % L = k by rw [Nat.mul_comm]; exact Nat.div_add_mod _ _] at hg
        rw [List.getElem?_eq_getElem hk] at hg
        simp only [Option.some.injEq] at hg
        rw [hg]
        have := h2 (k / L) (by omega)
        simpa [show k / L < A.length by omega] using this
      · intro k hk
        have hL : 0 < L := by
          rcases Nat.eq_zero_or_pos L with h | h
          · rw [h] at hk; simp at hk
          · exact h
        have hi : k / L < carry.length := by rw [Nat.div_lt_iff_lt_mul hL]; exact hk
        have hg := grid_get (fun i _ => A[i]?.getD 0) hi (Nat.mod_lt k hL)
        rw [show k / L * L + k % L = k by rw [Nat.mul_comm]; exact Nat.div_add_mod _ _] at hg
        simp only [advAt, Option.map_some]
        rw [hg]
        rfl

theorem NextOk.adv_congr {a : Nd} {ns : List Nat} {items : List SliceItem} {first : Bool} {n : Nat}
    {adv adv' : Nat → Option Nat} {vals : Nat → Val} {r : R Nd} (h : NextOk a ns items first n adv vals r)
    (e : ∀ i, i < n → adv i = adv' i) : NextOk a ns items first n adv' vals r := by
  rcases h with ⟨hf, out, l0, t, ts, e1, e2, e3, e4, e5, e6, e7, e8⟩ | h
  · refine Or.inl ⟨hf, out, l0, t, ts, e1, e2, e3, e4, e5, e6, e7, ?_⟩
    intro i hi
    rw [← e i hi]
    exact e8 i hi
  · exact Or.inr h

theorem grid_row {g : Nat → Nat → α} {n m k : Nat} (hk : k < (grid g n m).length) :
    k / m < n ∧ k % m < m ∧ (grid g n m)[k] = g (k / m) (k % m) := by
  have hk' := hk
  rw [grid_length] at hk'
  have hm : 0 < m := by
    rcases Nat.eq_zero_or_pos m with h | h
    · rw [h] at hk'; simp at hk'
    · exact h
  have hi : k / m < n := by rw [Nat.div_lt_iff_lt_mul hm]; exact hk'
  have hg := grid_get g hi (Nat.mod_lt k hm)
  rw [show k / m * m + k % m = k by rw [Nat.mul_comm]; exact Nat.div_add_mod _ _,
    List.getElem?_eq_getElem hk] at hg
  exact ⟨hi, Nat.mod_lt k hm, by simpa using hg⟩

theorem getitemNext_ok : ∀ (fuel : Nat) (items : List NdItem) (a : Nd) (m : Nat) (ns : List Nat)
    (s0 : Int) (ss : List Int) (carry : List Int) (adv : Adv) (length : Nat) (shape : List Nat)
    (vals : Nat → Val), items.length + a.shape.length ≤ fuel →
    a.shape = m :: ns → a.strides = s0 :: ss → ss.length = ns.length →
    contiguousFrom a.itemsize ns ss = some s0 →
    (∀ it ∈ items, NdItemOk shape it) → AdvOk adv carry.length shape.prod →
    (∀ i (h : i < carry.length), a.valueAt ns ss (a.byteoffset + carry[i] * s0) = ok (vals i)) →
    NextOk a ns (expandEllipsis ns.length items) adv.isNone carry.length (advAt adv) vals
      (a.getitemNext items carry adv length s0) := by
  intro fuel
  induction fuel with
  | zero => intro items a m ns s0 ss carry adv length shape vals hf hsh; simp [hsh] at hf
  | succ fuel ih =>
    intro items a m ns s0 ss carry adv length shape vals hf hsh hst hls hcon hok hadv hv
    have hl : a.shape.length = ns.length + 1 := by rw [hsh]; rfl
    cases items with
    | nil =>
      unfold getitemNext
      exact null_ok hsh hst hls hcon hv
    | cons it tail =>
      have hokt : ∀ x ∈ tail, NdItemOk shape x := fun x hx => hok x (List.mem_cons_of_mem _ hx)
      -- rows of one dimension less
      have hrows : ∀ n ns', ns = n :: ns' → ∀ i, i < carry.length →
          vals i = .list (vals i).items ∧ (vals i).items.length = n := by
        rintro n ns' rfl i hi
        cases ss with
        | nil => simp at hls
        | cons s ss' =>
          obtain ⟨vs, e1, e2, _⟩ := valueAt_cons.mp (hv i hi)
          rw [e1]
          exact ⟨rfl, e2⟩
      have hrow : ∀ n ns', ns = n :: ns' → ∀ s ss', ss = s :: ss' → ∀ i (hi : i < carry.length) (p : Int),
          0 ≤ p → p < (n : Int) →
          (a.flat 0).valueAt ns' ss' ((a.flat 0).byteoffset + ((n : Int) * carry[i]?.getD 0 + p) * s)
            = ok ((vals i).items[p.toNat]?.getD .null) := by
        rintro n ns' rfl s ss' rfl i hi p hp0 hp1
        obtain ⟨vs, e1, e2, e3⟩ := valueAt_cons.mp (hv i hi)
        have h3 := e3 p.toNat (by omega)
        rw [e1]
        simp only [Val.items]
        have hpl : p.toNat < vs.length := by omega
        rw [List.getElem?_eq_getElem (l := vs) hpl, Option.getD_some, ← h3, valueAt_flat]
        congr 1
        have hs0 : s0 = s * (n : Int) := by
          have h1 := contiguousFrom_eq hls hcon
          have hc' : contiguousFrom a.itemsize ns' ss' = some s := contiguousFrom_cons.mp (by rw [hcon]; rfl)
          have h2 := contiguousFrom_eq (by simpa using hls) hc'
          rw [h1, h2]
          simp only [List.prod_cons]
          push_cast; ring
        rw [hs0, Int.toNat_of_nonneg hp0]
        simp only [flat, add_zero, List.getElem?_eq_getElem hi, Option.getD_some]
        ring
      -- the recursive call
      have hrec : ∀ n ns', ns = n :: ns' → ∀ s ss', ss = s :: ss' → ∀ (its : List NdItem)
          (carry' : List Int) (adv' : Adv) (l : Nat) (vals' : Nat → Val),
          its.length ≤ (it :: tail).length → (∀ x ∈ its, NdItemOk shape x) →
          AdvOk adv' carry'.length shape.prod →
          (∀ k (h : k < carry'.length), (a.flat 0).valueAt ns' ss' ((a.flat 0).byteoffset + carry'[k] * s)
            = ok (vals' k)) →
          NextOk (a.flat 0) ns' (expandEllipsis ns'.length its) adv'.isNone carry'.length (advAt adv') vals'
            ((a.flat 0).getitemNext its carry' adv' l ((a.flat 0).strides.getD 0 0)) := by
        rintro n ns' rfl s ss' rfl its carry' adv' l vals' hlen hits hadv' hvals
        have f1 : (a.flat 0).shape = (m * n) :: ns' := by simp [flat, hsh]
        have f2 : (a.flat 0).strides = s :: ss' := by simp [flat, hst]
        have hc' : contiguousFrom a.itemsize ns' ss' = some s := contiguousFrom_cons.mp (by rw [hcon]; rfl)
        rw [f2]
        exact ih its (a.flat 0) (m * n) ns' s ss' carry' adv' l shape vals' (by
          rw [f1]; rw [hsh] at hf; simp at hf hlen ⊢; omega) f1 f2 (by simpa using hls) hc' hits hadv' hvals
      -- a range
      have hrange : ∀ n ns', ns = n :: ns' → ∀ (its : List NdItem) (start stop : Option Int) (step : Int),
          GoodArg start → GoodArg stop → step ≠ 0 → step ≠ kSliceNone →
          its.length ≤ (it :: tail).length → (∀ x ∈ its, NdItemOk shape x) →
          NextOk a (n :: ns') (.range start stop step :: expandEllipsis ns'.length its) adv.isNone
            carry.length (advAt adv) vals
            (rangeHead start stop step (a.shape.getD 1 0) >>= fun r =>
              rangeCarry carry adv r (a.shape.getD 1 0) >>= fun ca =>
              (a.flat 0).getitemNext its ca.1 ca.2 (length * r.2.2) ((a.flat 0).strides.getD 0 0) >>= fun out =>
              ok (afterRangeCopy length r.2.2 out)) := by
        rintro n ns' rfl its start stop step k1 k2 k3 k4 hlen hits
        cases ss with
        | nil => simp at hls
        | cons s ss' =>
          have g1 : a.shape.getD 1 0 = n := by rw [hsh]; rfl
          obtain ⟨lo, r1, r2⟩ := rangeHead_ok (n := n) k1 k2 k3 k4
          obtain ⟨adv', c1, c2, c3, c4⟩ := rangeCarry_ok (n := n)
            (L := (pySlicePositions n start stop step).length) (lo := lo) (step := step) hadv
          rw [g1, r1, bind_ok, c1, bind_ok]
          simp only
          refine next_range (lo := lo) k3 (hrows n ns' rfl) r2 ?_
          rw [← c3]
          have := hrec n ns' rfl s ss' rfl its
            (grid (fun i j => (n : Int) * carry[i]?.getD 0 + lo + (j : Int) * step) carry.length
              (pySlicePositions n start stop step).length) adv'
            (length * (pySlicePositions n start stop step).length)
            (fun k => (vals (k / (pySlicePositions n start stop step).length)).items[
              (lo + ((k % (pySlicePositions n start stop step).length : Nat) : Int) * step).toNat]?.getD .null)
            hlen hits (by rw [grid_length]; exact c2) (by
              intro k hk
              obtain ⟨q1, q2, q3⟩ := grid_row hk
              rw [q3]
              have hpos := mem_pySlicePositions (len := (n : Int)) (by omega) k3 (List.getElem_mem q2)
              rw [r2 _ q2] at hpos
              have := hrow n ns' rfl s ss' rfl _ q1 _ hpos.1 hpos.2
              rw [add_assoc]
              exact this)
          rw [grid_length] at this
          exact this.adv_congr c4
      cases it with
      | ellipsis =>
        unfold getitemNext
        rw [usedDims_eq]
        by_cases ht : tail = []
        · subst ht
          rw [if_pos (Or.inl (by simp))]
          unfold getitemNext
          have := null_ok (adv := advAt adv) (first := adv.isNone) hsh hst hls hcon hv
          simp only [expandEllipsis, usedDims, expandWith, List.append_nil, Nat.sub_zero]
          rcases this with ⟨_, out, l0, t, ts, e1, e2, e3, e4, e5, e6, e7, e8⟩ | ⟨h, _⟩
          · refine Or.inl ⟨full_fits ns, out, l0, t, ts, e1, ?_, e3, ?_, e5, e6, e7, ?_⟩
            · rw [full_shape]; exact e2
            · rw [full_shape]; exact e4
            · intro i hi
              obtain ⟨w, h1, h2⟩ := e8 i hi
              rw [select_nil, Option.some.injEq] at h1
              subst h1
              refine ⟨_, full_select (hv i hi), ?_⟩
              rw [full_shape]; exact h2
          · simp [fitsShape] at h
        · by_cases hd : a.shape.length = usedDims tail + 1
          · rw [if_pos (Or.inr hd)]
            have := ih tail a m ns s0 ss carry adv length shape vals (by simp at hf; omega) hsh hst hls hcon
              hokt hadv hv
            have e : expandEllipsis ns.length (.ellipsis :: tail) = expandEllipsis ns.length tail := by
              simp only [expandEllipsis, usedDims, expandWith]
              rw [show ns.length - usedDims tail = 0 by omega]
              simp
            rw [e]; exact this
          · rw [if_neg (by simp [ht, hd])]
            cases ns with
            | nil =>
              rw [dif_pos (by simp [hl])]
              have hnf : ¬ fitsShape [] (expandEllipsis 0 (.ellipsis :: tail)) = true := by
                intro h
                have := fits_used (k := 0 - usedDims (.ellipsis :: tail)) (items := .ellipsis :: tail) h
                simp [usedDims] at this
                simp [hl] at hd
                omega
              exact Or.inr ⟨Bool.eq_false_iff.mpr hnf, _, rfl⟩
            | cons n ns' =>
              rw [dif_neg (by simp [hl])]
              have := hrange n ns' rfl (.ellipsis :: tail) none none 1 (by decide) (by decide) (by decide)
                (by decide) (Nat.le_refl _) hok
              by_cases hgt : usedDims tail ≤ ns'.length
              · have e : expandEllipsis (n :: ns').length (.ellipsis :: tail)
                    = .range none none 1 :: expandEllipsis ns'.length (.ellipsis :: tail) := by
                  simp only [expandEllipsis, usedDims, expandWith, List.length_cons]
                  rw [show ns'.length + 1 - usedDims tail = (ns'.length - usedDims tail) + 1 by omega]
                  simp [List.replicate_succ]
                rw [e]; exact this
              · have hnf : ¬ fitsShape (n :: ns') (expandEllipsis (n :: ns').length (.ellipsis :: tail)) = true := by
                  intro h
                  have := fits_used (items := .ellipsis :: tail) h
                  simp [usedDims] at this
                  simp [hl] at hd
                  omega
                have hnf' : ¬ fitsShape ns' (expandEllipsis ns'.length (.ellipsis :: tail)) = true := by
                  intro h
                  have := fits_used (items := .ellipsis :: tail) h
                  simp [usedDims] at this
                  omega
                rcases this with ⟨h, _⟩ | ⟨_, h⟩
                · exact absurd h hnf'
                · exact Or.inr ⟨Bool.eq_false_iff.mpr hnf, h⟩
      | item it =>
        have hexp : ∀ j, usedDims (.item it :: tail) = usedDims tail + j →
            expandEllipsis (ns.length) (.item it :: tail) = it :: expandEllipsis (ns.length - j) tail := by
          intro j hj
          simp only [expandEllipsis, expandWith, hj]
          rw [show ns.length - (usedDims tail + j) = ns.length - j - usedDims tail by omega]
        have hnil : it ≠ .newaxis → ns = [] →
            NextOk a ns (expandEllipsis ns.length (.item it :: tail)) adv.isNone carry.length (advAt adv) vals
              (err "too many dimensions in slice") := by
          intro hne hnil
          subst hnil
          simp only [expandEllipsis, expandWith]
          have : ¬ fitsShape [] (it :: expandWith (([] : List Nat).length - usedDims (.item it :: tail)) tail) = true := by
            cases it <;> simp_all [fitsShape]
          exact Or.inr ⟨Bool.eq_false_iff.mpr this, _, rfl⟩
        cases it with
        | newaxis =>
          unfold getitemNext
          rw [hexp 0 (by simp [usedDims])]
          simp only [Nat.sub_zero]
          exact next_newaxis (ih tail a m ns s0 ss carry adv length shape vals (by simp at hf; omega) hsh hst
            hls hcon hokt hadv hv)
        | «at» i =>
          unfold getitemNext
          cases ns with
          | nil =>
            rw [dif_pos (by simp [hl])]
            exact hnil (by simp) rfl
          | cons n ns' =>
            cases ss with
            | nil => simp at hls
            | cons s ss' =>
              rw [dif_neg (by simp [hl])]
              rw [hexp 1 (by simp [usedDims])]
              simp only [List.length_cons, Nat.add_sub_cancel]
              have g1 : a.shape.getD 1 0 = n := by rw [hsh]; rfl
              rw [g1]
              rcases atHead_eq i n with ⟨p, hp, he⟩ | ⟨hr, e, he⟩
              · rw [he, bind_ok, at_carry (by simp [alloc]), bind_ok]
                refine next_at hp (hrows n ns' rfl) ?_
                have hpn := regAt_lt hp
                have := hrec n ns' rfl s ss' rfl tail
                  ((List.range carry.length).map (fun i => (n : Int) * carry[i]?.getD 0 + (p : Int))) adv length
                  (fun i => (vals i).items[p]?.getD .null) (by simp) hokt
                  (by simpa using hadv) (by
                    intro k hk
                    have hk' : k < carry.length := by simpa using hk
                    simp only [List.getElem_map, List.getElem_range]
                    have := hrow n ns' rfl s ss' rfl k hk' (p : Int) (by omega) (by omega)
                    simpa using this)
                simpa using this
              · exact Or.inr ⟨by simp [fitsShape, hr], e, by rw [he]; rfl⟩
        | range start stop step =>
          unfold getitemNext
          cases ns with
          | nil =>
            rw [dif_pos (by simp [hl])]
            exact hnil (by simp) rfl
          | cons n ns' =>
            rw [dif_neg (by simp [hl])]
            rw [hexp 1 (by simp [usedDims])]
            simp only [List.length_cons, Nat.add_sub_cancel]
            obtain ⟨k1, k2, k3, k4⟩ := hok _ List.mem_cons_self
            exact hrange n ns' rfl tail start stop step k1 k2 k3 k4 (by simp) hokt
        | array shape' flat =>
          unfold getitemNext
          obtain ⟨rfl, hfl⟩ : shape' = shape ∧ flat.length = shape.prod := hok _ List.mem_cons_self
          cases ns with
          | nil =>
            rw [dif_pos (by simp [hl])]
            exact hnil (by simp) rfl
          | cons n ns' =>
            cases ss with
            | nil => simp at hls
            | cons s ss' =>
              rw [dif_neg (by simp [hl])]
              rw [hexp 1 (by simp [usedDims])]
              simp only [List.length_cons, Nat.add_sub_cancel]
              have g1 : a.shape.getD 1 0 = n := by rw [hsh]; rfl
              rw [g1]
              rcases regularize_arrayslice_eq (flat := flat) (n := n) with ⟨p, hp1, hp2⟩ | ⟨h1, e, he⟩
              · rw [hp1, bind_ok]
                have hpn : ∀ j, j < flat.length → p j < n := fun j hj => regAt_lt (hp2 j hj)
                cases adv with
                | none =>
                  simp only
                  rw [array_carry (by simp only [alloc, List.length_replicate, Int.toNat_natCast]), bind_ok,
                    array_adv (by simp only [alloc, List.length_replicate, Int.toNat_natCast]), bind_ok]
                  simp only [List.length_map, List.length_range]
                  refine next_array (p := p) (fun i hi => rfl) hp2 hfl (hrows n ns' rfl) ?_
                  have := hrec n ns' rfl s ss' rfl tail
                    (grid (fun i j => (n : Int) * carry[i]?.getD 0 +
                      ((List.range flat.length).map (fun (j : Nat) => (p j : Int)))[j]?.getD 0)
                      carry.length flat.length)
                    (some (grid (fun _ (j : Nat) => (j : Int)) carry.length flat.length))
                    (length * flat.length)
                    (fun k => (vals (k / flat.length)).items[p (k % flat.length)]?.getD .null) (by simp) hokt
                    (by
                      intro A hA
                      simp only [Option.some.injEq] at hA
                      subst hA
                      refine ⟨by rw [grid_length, grid_length], ?_⟩
                      intro k hk
                      obtain ⟨q1, q2, q3⟩ := grid_row hk
                      rw [q3, ← hfl]
                      omega) (by
                      intro k hk
                      obtain ⟨q1, q2, q3⟩ := grid_row hk
                      rw [q3]
                      have := hpn _ q2
                      have := hrow n ns' rfl s ss' rfl _ q1 ((p (k % flat.length) : Nat) : Int) (by omega) (by omega)
                      simpa [q2] using this)
                  rw [grid_length] at this
                  refine this.adv_congr ?_
                  intro k hk
                  have hk' : k < (grid (fun _ (j : Nat) => (j : Int)) carry.length flat.length).length := by
                    rw [grid_length]; exact hk
                  obtain ⟨q1, q2, q3⟩ := grid_row hk'
                  simp only [advAt, Option.map_some]
                  rw [List.getElem?_eq_getElem hk', q3]
                  simp only [Option.getD_some, Int.toNat_natCast]
                | some A =>
                  simp only
                  obtain ⟨a1, a2⟩ := hadv A rfl
                  rw [array_advanced_carry (by simp [alloc]) a1 (by
                    intro i hi
                    have := a2 i hi
                    rw [← hfl] at this
                    simpa using this), bind_ok]
                  have hq : ∀ i, i < carry.length → (A[i]?.getD 0).toNat < flat.length := by
                    intro i hi
                    have := a2 i (by omega)
                    rw [List.getElem?_eq_getElem (by omega), Option.getD_some]
                    omega
                  refine next_arrayAdvanced (p := p) (q := fun i => (A[i]?.getD 0).toNat)
                    (fun i hi => ⟨rfl, hq i hi⟩) hp2 (hrows n ns' rfl) ?_
                  have := hrec n ns' rfl s ss' rfl tail
                    ((List.range carry.length).map (fun i => (n : Int) * carry[i]?.getD 0 +
                      ((List.range flat.length).map (fun (j : Nat) => (p j : Int)))[(A[i]?.getD 0).toNat]?.getD 0))
                    (some A) (length * shape'.headD 0)
                    (fun i => (vals i).items[p (A[i]?.getD 0).toNat]?.getD .null) (by simp) hokt
                    (by simpa using hadv) (by
                      intro k hk
                      have hk' : k < carry.length := by simpa using hk
                      simp only [List.getElem_map, List.getElem_range]
                      have hq' := hq k hk'
                      have := hpn _ hq'
                      have := hrow n ns' rfl s ss' rfl k hk' ((p (A[k]?.getD 0).toNat : Nat) : Int) (by omega) (by omega)
                      simpa [hq'] using this)
                  simpa using this
              · exact Or.inr ⟨by simp [fitsShape, h1], e, by rw [he]; rfl⟩

end Nd
end Awk
