import Verif.Lemmas.Num
import Verif.Lemmas.Flatten
/-
`to_regular`.
-/

namespace Awk
open R

theorem toRegular_kernel {offsets : List Int} {f : Nat → Nat} {n : Nat}
    (hl : offsets.length = n + 1)
    (hd : ∀ i (h : i + 1 < offsets.length), offsets[i + 1] - offsets[i] = (f i : Int)) :
    ((∀ i, i < n → f i = f 0) → ListOffsetArray_toRegularArray offsets offsets.length
      = ok (if n = 0 then 0 else (f 0 : Int))) ∧
    ((∃ i, i < n ∧ f i ≠ f 0) → (ListOffsetArray_toRegularArray offsets offsets.length).IsErr) := by
  unfold ListOffsetArray_toRegularArray
  rw [hl, show n + 1 - 1 = n by omega]
  have hrun : ∀ m, m ≤ n → (∀ i, i < m → f i = f 0) → forN m (fun i size =>
      rd offsets ((i + 1 : Nat) : Int) >>= fun hi => rd offsets (i : Int) >>= fun lo =>
      let count := hi - lo
      if count < 0 then err "offsets must be monotonically increasing"
      else if size = -1 then ok count
      else if size ≠ count then err "cannot convert to RegularArray because subarray lengths are not regular"
      else ok size) (-1) = ok (if m = 0 then -1 else (f 0 : Int)) := by
    intro m
    induction m with
    | zero => intro _ _; rfl
    | succ m ih =>
      intro hm hall
      rw [forN_succ, ih (by omega) (fun i hi => hall i (by omega)), bind_ok,
        rd_nat_ok (by omega), bind_ok, rd_nat_ok (by omega), bind_ok]
      dsimp only
      rw [hd m (by omega), if_neg (by omega), hall m (by omega)]
      by_cases h0 : m = 0
      · subst h0; simp
      · simp [h0]
  constructor
  · intro hall
    rw [hrun n (Nat.le_refl _) hall, bind_ok]
    by_cases h0 : n = 0
    · simp [h0]
    · simp only [h0, if_false]
      rw [if_neg (by omega)]
  · rintro ⟨i, hi, hne⟩
    -- the first position that differs
    obtain ⟨m, hm⟩ : ∃ m, m < n ∧ f m ≠ f 0 ∧ ∀ k, k < m → f k = f 0 := by
      clear hrun
      induction i using Nat.strong_induction_on with
      | _ i ih =>
        by_cases hk : ∃ k, k < i ∧ f k ≠ f 0
        · obtain ⟨k, hk1, hk2⟩ := hk
          exact ih k hk1 (by omega) hk2
        · exact ⟨i, hi, hne, fun k hk' => by
            by_contra h; exact hk ⟨k, hk', h⟩⟩
    obtain ⟨hmn, hmne, hmall⟩ := hm
    have hm0 : m ≠ 0 := fun h => hmne (by rw [h])
    suffices hs : ∀ k, m < k → k ≤ n → (forN k (fun i size =>
        rd offsets ((i + 1 : Nat) : Int) >>= fun hi => rd offsets (i : Int) >>= fun lo =>
        let count := hi - lo
        if count < 0 then err "offsets must be monotonically increasing"
        else if size = -1 then ok count
        else if size ≠ count then err "cannot convert to RegularArray because subarray lengths are not regular"
        else ok size) (-1)).IsErr by
      obtain ⟨e, he⟩ := hs n hmn (Nat.le_refl _)
      exact ⟨e, by rw [he]; rfl⟩
    intro k hk hkn
    induction k with
    | zero => omega
    | succ k ih =>
      rw [forN_succ]
      by_cases hkm : k = m
      · subst hkm
        rw [hrun k (by omega) hmall, bind_ok, rd_nat_ok (by omega), bind_ok, rd_nat_ok (by omega),
          bind_ok]
        dsimp only
        rw [hd k (by omega), if_neg (by omega), if_neg hm0, if_neg (by omega), if_pos (by omega)]
        exact ⟨_, rfl⟩
      · obtain ⟨e, he⟩ := ih (by omega) (by omega)
        exact ⟨e, by rw [he]; rfl⟩

namespace Content

/-- The content of a ListOffsetArray can be cut at its first and last offset. -/
def OffsetsInRange : Content → Prop
  | listOffset _ offsets c => ∀ o ∈ offsets, 0 ≤ o ∧ o ≤ c.len
  | _ => True

theorem listOffsetToRegular_ok {p : Params} {offsets : List Int} {c : Content}
    (h : (listOffset p offsets c).Good) (hr : OffsetsInRange (listOffset p offsets c)) :
    ((∀ i, i < (listOffset p offsets c).len →
        (listOffset p offsets c).lens i = (listOffset p offsets c).lens 0) →
      ∃ c', listOffsetToRegular p offsets c = ok c' ∧ c'.Good ∧
        c'.len = (listOffset p offsets c).len ∧
        (∀ i, i < c'.len → c'.valD i = (listOffset p offsets c).valD i) ∧
        ∃ d size zeros, c' = regular p d size zeros) ∧
    ((∃ i, i < (listOffset p offsets c).len ∧
        (listOffset p offsets c).lens i ≠ (listOffset p offsets c).lens 0) →
      (listOffsetToRegular p offsets c).IsErr) := by
  obtain ⟨hl, hc, hp⟩ := good_listOffset.mp h
  obtain ⟨n, hn⟩ : ∃ n, offsets.length = n + 1 := ⟨offsets.length - 1, by omega⟩
  have hclen : (listOffset p offsets c).len = n := by simp only [len]; omega
  have hlens : ∀ i (hi : i + 1 < offsets.length),
      offsets[i + 1] - offsets[i] = ((listOffset p offsets c).lens i : Int) := by
    intro i hi
    rw [lens_eq (valD_listOffset h hi), seg_length]
    have := (hp i hi).le
    omega
  have hoff : ∀ i (hi : i < offsets.length),
      offsets[i] = offsets[0] + (sumTo (listOffset p offsets c).lens i : Int) := by
    intro i
    induction i with
    | zero => intro hi; simp
    | succ i ih =>
      intro hi
      have h1 := ih (by omega)
      have h2 := hlens i hi
      rw [sumTo_succ]
      push_cast; omega
  have h0r := hr offsets[0] (List.getElem_mem _)
  have hnr := hr (offsets[n]'(by omega)) (List.getElem_mem _)
  have hon := hoff n (by omega)
  obtain ⟨d, g1, g2, g3, g4, g5⟩ := range_good hc (a := offsets[0].toNat)
    (b := (offsets[n]'(by omega)).toNat) (by omega) (by omega)
  rw [show ((offsets[0].toNat : Nat) : Int) = offsets[0] by omega,
    show (((offsets[n]'(by omega)).toNat : Nat) : Int) = offsets[n]'(by omega) by omega] at g1
  obtain ⟨k1, k2⟩ := toRegular_kernel hn hlens
  have hdlen : d.len = sumTo (listOffset p offsets c).lens n := by
    rw [g4.1]; omega
  have hstart : (rd offsets 0 >>= fun start =>
      rd offsets ((offsets.length - 1 : Nat) : Int) >>= fun stop => c.range start stop) = ok d := by
    rw [rd_ok (by omega) (by omega), bind_ok, rd_nat_ok (by omega), bind_ok]
    simp only [show offsets.length - 1 = n by omega, Int.toNat_zero]
    exact g1
  have hunf : ∀ r : R Int, ListOffsetArray_toRegularArray offsets offsets.length = r →
      listOffsetToRegular p offsets c
        = (r >>= fun size => ok (regular p d size.toNat (offsets.length - 1))) := by
    intro r hr
    unfold listOffsetToRegular
    rw [rd_ok (by omega) (by omega), bind_ok, rd_nat_ok (by omega), bind_ok]
    simp only [show offsets.length - 1 = n by omega, Int.toNat_zero]
    rw [g1, bind_ok, hr]
  constructor
  · intro hall
    have hall' : ∀ i, i < n → (listOffset p offsets c).lens i = (listOffset p offsets c).lens 0 :=
      fun i hi => hall i (by omega)
    have hsum : ∀ i, i ≤ n → sumTo (listOffset p offsets c).lens i
        = i * (listOffset p offsets c).lens 0 := by
      intro i hi
      rw [sumTo_congr (g := fun _ => (listOffset p offsets c).lens 0)
        (fun j hj => hall' j (by omega)), sumTo_const]
    rw [hunf _ (k1 hall'), bind_ok]
    set size := (if n = 0 then (0 : Int) else ((listOffset p offsets c).lens 0 : Int)).toNat with hs
    have hsz : n ≠ 0 → size = (listOffset p offsets c).lens 0 := by
      intro h0; simp [hs, h0]
    have hlen' : (regular p d size (offsets.length - 1)).len = n := by
      simp only [len]
      split
      · rename_i hne
        have h0 : n ≠ 0 := fun h0 => hne (by simp [hs, h0])
        rw [hdlen, hsum n (Nat.le_refl _), ← hsz h0, Nat.mul_div_cancel _ (by omega)]
      · omega
    refine ⟨_, rfl, good_regular.mpr g2, by rw [hlen', hclen], ?_, _, _, _, rfl⟩
    intro i hi
    rw [hlen'] at hi
    have hsz' := hsz (by omega)
    rw [valD_regular g2 (by rw [hlen']; exact hi), valD_listOffset h (by omega)]
    have h1 := hlens i (by omega)
    have h2 := hoff i (by omega)
    have h3 := hall' i hi
    have h4 := hsum i (by omega)
    rw [show (offsets[i + 1] - offsets[i]).toNat = size by omega]
    congr 1
    have hm := sumTo_mono (f := (listOffset p offsets c).lens) (show i + 1 ≤ n by omega)
    rw [sumTo_succ] at hm
    apply List.map_congr_left
    intro k hk
    simp only [List.mem_range] at hk
    have h5 : i * size = sumTo (listOffset p offsets c).lens i := by rw [hsz', h4]
    rw [h5, g4.valD (by omega)]
    congr 1
    omega
  · rintro ⟨i, hi, hne⟩
    obtain ⟨e, he⟩ := k2 ⟨i, by omega, hne⟩
    exact ⟨e, by rw [hunf _ he]; rfl⟩

/-- `toListOffsetArray64(true)` keeps the elements. -/
theorem toListOffset_ok {c : Content} (h : c.Good) (hl : c.isListNode = true) :
    ∃ c', c.toListOffset = ok c' ∧ c'.Good ∧ c'.len = c.len ∧
      ∀ i, i < c.len → c'.valD i = c.valD i := by
  obtain ⟨offs, d, h1, h2, h3⟩ := listParts_ok h hl
  refine ⟨listOffset c.params offs d, by unfold toListOffset; rw [h1, bind_ok], ?_, ?_, ?_⟩
  · rw [h2.offs_eq]; exact good_offsTo h2.good h2.bound
  · rw [h2.offs_eq]; simp [len]
  · intro i hi
    rw [h2.offs_eq, valD_offsTo h2.good h2.bound hi, ← h2.vals i hi]

theorem toRegular_ok {c : Content} (h : c.Good) (hl : c.isListNode = true)
    (hr : OffsetsInRange c) :
    ((∀ i, i < c.len → c.lens i = c.lens 0) →
      ∃ c', c.toRegular = ok c' ∧ c'.Good ∧ c'.len = c.len ∧
        (∀ i, i < c.len → c'.valD i = c.valD i) ∧
        ∃ d size zeros, c' = regular c.params d size zeros) ∧
    ((∃ i, i < c.len ∧ c.lens i ≠ c.lens 0) → c.toRegular.IsErr) := by
  cases c <;> simp only [isListNode, Bool.false_eq_true] at hl
  case regular p c size zeros =>
    refine ⟨fun _ => ⟨_, rfl, h, rfl, fun _ _ => rfl, _, _, _, rfl⟩, ?_⟩
    rintro ⟨i, hi, hne⟩
    have hc := good_regular.mp h
    rw [lens_regular hc hi, lens_regular hc (by omega)] at hne
    exact absurd rfl hne
  case listArray p starts stops c =>
    obtain ⟨offs, d, h1, h2, h3⟩ := listParts_ok h rfl
    have hg : (listOffset p offs d).Good := by
      rw [h2.offs_eq]; exact good_offsTo h2.good h2.bound
    have hlen : (listOffset p offs d).len = (listArray p starts stops c).len := by
      rw [h2.offs_eq]; simp [len]
    have hv : ∀ i, i < (listArray p starts stops c).len →
        (listOffset p offs d).valD i = (listArray p starts stops c).valD i := by
      intro i hi
      rw [h2.vals i hi, h2.offs_eq, valD_offsTo h2.good h2.bound hi]; rfl
    have hlens : ∀ i, i < (listArray p starts stops c).len →
        (listOffset p offs d).lens i = (listArray p starts stops c).lens i :=
      fun i hi => by simp only [lens, hv i hi]
    have hir : OffsetsInRange (listOffset p offs d) := by
      intro o ho
      rw [h2.offs_eq] at ho
      obtain ⟨i, hi, rfl⟩ := List.mem_iff_getElem.mp ho
      rw [offsTo_getElem]
      have := h2.bound
      have := sumTo_mono (f := (listArray p starts stops c).lens)
        (show i ≤ (listArray p starts stops c).len by simp at hi; omega)
      omega
    obtain ⟨k1, k2⟩ := listOffsetToRegular_ok hg hir
    simp only [toRegular]
    rw [h1, bind_ok]
    constructor
    · intro hall
      obtain ⟨c', e1, e2, e3, e4, e5⟩ := k1 (fun i hi => by
        rw [hlens i (by omega), hlens 0 (by omega)]; exact hall i (by omega))
      exact ⟨c', e1, e2, by rw [e3, hlen], fun i hi => by rw [e4 i (by omega), hv i hi], e5⟩
    · rintro ⟨i, hi, hne⟩
      exact k2 ⟨i, by omega, by rw [hlens i hi, hlens 0 (by omega)]; exact hne⟩
  case listOffset p offsets c =>
    obtain ⟨k1, k2⟩ := listOffsetToRegular_ok h hr
    simp only [toRegular]
    constructor
    · intro hall
      obtain ⟨c', e1, e2, e3, e4, e5⟩ := k1 hall
      exact ⟨c', e1, e2, e3, fun i hi => e4 i (by omega), e5⟩
    · exact k2

theorem sum_take (l : List Nat) (i : Nat) (hi : i ≤ l.length) :
    (l.take i).sum = sumTo (fun k => l[k]?.getD 0) i := by
  induction i with
  | zero => simp
  | succ i ih =>
    rw [List.take_add_one, List.sum_append, ih (by omega), sumTo_succ,
      List.getElem?_eq_getElem (by omega)]
    simp

theorem countP_offsTo {f : Nat → Nat} {n : Nat} :
    (offsTo f n).countP (fun x => decide (x ≤ (sumTo f n : Int))) = n + 1 := by
  rw [List.countP_eq_length.mpr ?_, offsTo_length]
  intro x hx
  obtain ⟨i, hi, rfl⟩ := List.mem_iff_getElem.mp hx
  rw [offsTo_getElem]
  have := sumTo_mono (f := f) (show i ≤ n by simp at hi; omega)
  simp; omega

end Content
end Awk
