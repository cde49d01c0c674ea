import Verif.Lemmas.Validity
import Verif.Lemmas.SliceRange
import Verif.Model.Option
import Verif.Spec.Option
/-
Helper lemmas for the option-type module.
-/

namespace Awk
open R

/-- `for i < n: out[i] = f(i)` with a known pure result. -/
theorem forN_fill_eq {n : Nat} {f : Nat → R α} (g : Nat → α) {out : List α} (hlen : out.length = n)
    (hf : ∀ i, i < n → f i = ok (g i)) :
    forN n (fun i b => f i >>= fun x => wr b (i : Int) x) out = ok ((List.range n).map g) := by
  rw [forN_fill0 f out (by omega), mapN_ok' g hf, bind_ok, List.drop_eq_nil_of_le (by omega)]
  simp

/-- `for i < n: if (some x = f(i)) { out[k] = x; k++; }` with known pure results. -/
theorem forN_push_eq {n : Nat} {f : Nat → R (Option α)} (g : Nat → Option α) {out : List α}
    (hlen : ((List.range n).filterMap g).length ≤ out.length)
    (hf : ∀ i, i < n → f i = ok (g i)) :
    forN n (fun i st => f i >>= fun o => pushOpt st o) (0, out)
      = ok (((List.range n).filterMap g).length,
          (List.range n).filterMap g ++ out.drop ((List.range n).filterMap g).length) := by
  induction n with
  | zero => simp
  | succ n ih =>
    have hsplit : (List.range (n + 1)).filterMap g
        = (List.range n).filterMap g ++ (g n).toList := by
      rw [List.range_succ, List.filterMap_append]
      cases h : g n <;> simp [h]
    rw [hsplit, List.length_append] at hlen
    rw [forN_succ, ih (by omega) (fun i hi => hf i (by omega)), bind_ok, hf n (by omega), bind_ok,
      hsplit]
    cases hg : g n with
    | none => simp [pushOpt]
    | some x =>
      rw [hg] at hlen
      simp only [Option.toList_some, List.length_singleton] at hlen
      simp only [pushOpt]
      rw [wr_nat_ok (by simp; omega), bind_ok]
      congr 1
      ext1
      · simp
      · simp only [Option.toList_some]
        rw [List.set_append_right _ _ (by omega), Nat.sub_self,
          List.drop_eq_getElem_cons (by omega : _ < out.length), List.set_cons_zero]
        simp only [List.append_assoc, List.singleton_append, List.length_append,
          List.length_singleton]

theorem forN_push_eq' {n : Nat} {f : Nat → R (Option α)} (g : Nat → Option α) {out : List α}
    (hlen : out.length = ((List.range n).filterMap g).length)
    (hf : ∀ i, i < n → f i = ok (g i)) :
    forN n (fun i st => f i >>= fun o => pushOpt st o) (0, out)
      = ok (((List.range n).filterMap g).length, (List.range n).filterMap g) := by
  rw [forN_push_eq g (by omega) hf, ← hlen, List.drop_eq_nil_of_le (by omega)]
  simp

/-- A loop that counts. -/
theorem forN_count {n : Nat} {f : Nat → Nat → R Nat} (q : Nat → Bool)
    (hf : ∀ i, i < n → ∀ k, f i k = ok (if q i then k + 1 else k)) :
    forN n f 0 = ok ((List.range n).countP q) := by
  induction n with
  | zero => simp
  | succ n ih =>
    rw [forN_succ, ih (fun i hi => hf i (by omega)), bind_ok, hf n (by omega), List.range_succ,
      List.countP_append]
    cases h : q n <;> simp [h]

theorem filterMap_length_countP (l : List α) (g : α → Option β) :
    (l.filterMap g).length = l.countP (fun a => (g a).isSome) := by
  induction l with
  | nil => rfl
  | cons a l ih =>
    rw [List.countP_cons]
    cases h : g a <;> simp [h, ih]

theorem countP_sub (l : List α) (q : α → Bool) :
    l.length - l.countP q = l.countP (fun a => !q a) := by
  have := List.length_eq_countP_add_countP q (l := l)
  have h2 : l.countP (fun a => decide ¬ (q a = true)) = l.countP (fun a => !q a) := by
    congr 1; funext a; cases q a <;> rfl
  rw [h2] at this
  omega

theorem carry_arange_ok (n : Nat) :
    carry_arange (alloc n) n = ok ((List.range n).map (fun (i : Nat) => (i : Int))) := by
  unfold carry_arange
  exact forN_fill_eq _ (alloc_length n) (fun _ _ => rfl)

theorem const_mask_ok (v : Int) (n : Nat) :
    const_mask v (alloc n) n = ok ((List.range n).map (fun _ => v)) := by
  unfold const_mask
  exact forN_fill_eq _ (alloc_length n) (fun _ _ => rfl)

/-- The byte-mask test at position `i`. -/
def maskOk (mask : List Int) (vw : Bool) (i : Nat) : Bool :=
  decide (decide (mask[i]?.getD 0 ≠ 0) = vw)

theorem ByteMaskedArray_toIndexedOptionArray_ok (mask : List Int) (vw : Bool) :
    ByteMaskedArray_toIndexedOptionArray (alloc mask.length) mask mask.length vw
      = ok ((List.range mask.length).map (fun i => if maskOk mask vw i then (i : Int) else -1)) := by
  unfold ByteMaskedArray_toIndexedOptionArray
  refine forN_fill_eq _ (alloc_length _) (fun i hi => ?_)
  rw [rd_nat_ok hi, bind_ok]
  simp [maskOk, hi]

/-- The shift loop of the bit-mask kernels, for any value stored at each position. -/
theorem bitLoop_ok {mask : List Nat} {out : List Int} (lsb : Bool) (g : Nat → Bool → Int)
    (hlen : out.length = mask.length * 8) :
    ∃ out', forN mask.length (fun i out =>
        rd mask (i : Int) >>= fun byte =>
        forN 8 (fun b st =>
          wr st.1 ((i * 8 + b : Nat) : Int)
            (g (i * 8 + b) (if lsb then decide (st.2 &&& 1 ≠ 0) else decide (st.2 &&& 128 ≠ 0)))
            >>= fun out => ok (out, if lsb then st.2 >>> 1 else (st.2 <<< 1) % 256)) (out, byte)
          >>= fun st => ok st.1) out = ok out' ∧
      out'.length = mask.length * 8 ∧
      ∀ k, k < mask.length * 8 → out'[k]? = some (g k (bitOf mask lsb k)) := by
  have := forN_inv (n := mask.length) (s := out)
    (body := fun i out => rd mask (i : Int) >>= fun byte =>
      forN 8 (fun b st =>
          wr st.1 ((i * 8 + b : Nat) : Int)
            (g (i * 8 + b) (if lsb then decide (st.2 &&& 1 ≠ 0) else decide (st.2 &&& 128 ≠ 0)))
            >>= fun out => ok (out, if lsb then st.2 >>> 1 else (st.2 <<< 1) % 256))
        (out, byte) >>= fun st => ok st.1)
    (fun i o => o.length = mask.length * 8 ∧
      ∀ k, k < i * 8 → o[k]? = some (g k (bitOf mask lsb k)))
    ⟨hlen, by intro k hk; omega⟩ ?_
  · obtain ⟨o, h1, h2, h3⟩ := this
    exact ⟨o, h1, h2, h3⟩
  · rintro i hi o ⟨ho, hp⟩
    rw [rd_nat_ok hi, bind_ok]
    have inner := forN_inv (n := 8) (s := (o, mask[i]))
      (body := fun b st =>
          wr st.1 ((i * 8 + b : Nat) : Int)
            (g (i * 8 + b) (if lsb then decide (st.2 &&& 1 ≠ 0) else decide (st.2 &&& 128 ≠ 0)))
            >>= fun out => ok (out, if lsb then st.2 >>> 1 else (st.2 <<< 1) % 256))
      (fun b st => st.1.length = mask.length * 8 ∧
        (∀ j, (lsb = false → j ≤ 7) →
          st.2.testBit j = if lsb then mask[i].testBit (b + j)
            else decide (j ≥ b) && mask[i].testBit (j - b)) ∧
        ∀ k, k < i * 8 + b → st.1[k]? = some (g k (bitOf mask lsb k)))
      ⟨ho, by intro j _; cases lsb <;> simp, by simpa using hp⟩ ?_
    · obtain ⟨st, h1, h2, _, h3⟩ := inner
      refine ⟨st.1, by rw [h1, bind_ok], h2, ?_⟩
      intro k hk; exact h3 k (by omega)
    · rintro b hb ⟨o, x⟩ ⟨ho, hx, hp⟩
      have hlt : i * 8 + b < o.length := by simp at ho; omega
      have hdiv : (i * 8 + b) / 8 = i := by omega
      have hmod : (i * 8 + b) % 8 = b := by omega
      simp only
      rw [wr_nat_ok hlt, bind_ok]
      refine ⟨_, rfl, by simpa using ho, ?_, ?_⟩
      · intro j hj
        simp only
        cases lsb
        · simp only [Bool.false_eq_true, if_false] at hx hj ⊢
          have h256 : (256 : Nat) = 2 ^ 8 := rfl
          rw [h256, Nat.testBit_mod_two_pow, Nat.testBit_shiftLeft]
          have hj8 : j < 8 := by have := hj trivial; omega
          by_cases hj1 : j ≥ 1
          · rw [hx (j - 1) (by intro _; omega)]
            simp only [hj8, hj1, decide_true, Bool.true_and]
            have e1 : j - 1 - b = j - (b + 1) := by omega
            rw [e1]
            congr 1
            simp only [decide_eq_decide]; omega
          · have : j = 0 := by omega
            subst this; simp
        · simp only [if_true] at hx hj ⊢
          rw [Nat.testBit_shiftRight]
          rw [hx (1 + j) (by simp)]; congr 1; omega
      · simp only
        refine fun k hk => prefix_set (g := fun k => g k (bitOf mask lsb k)) hlt hp ?_ k (by omega)
        simp only [bitOf, hdiv, hmod, List.getElem?_eq_getElem hi, Option.getD_some]
        cases lsb
        · simp only [Bool.false_eq_true, if_false] at hx ⊢
          rw [and_128_ne_zero, hx 7 (by simp)]
          have : 7 ≥ b := by omega
          simp [this]
        · simp only [if_true] at hx ⊢
          rw [and_one_ne_zero, hx 0 (by simp)]; simp

theorem bitLoop_range {out' : List Int} {n length : Nat} {g : Nat → Int} (h : length ≤ n)
    (hlen : out'.length = n) (hg : ∀ k, k < n → out'[k]? = some (g k)) :
    idxRange out' 0 length = ok ((List.range length).map g) := by
  rw [show (0 : Int) = ((0 : Nat) : Int) from rfl, idxRange_ok (by omega) (by omega)]
  congr 1
  apply List.ext_getElem?
  intro k
  simp only [List.drop_zero, Nat.sub_zero, List.getElem?_take, List.getElem?_map]
  by_cases hk : k < length
  · rw [if_pos hk, hg k (by omega), List.getElem?_range hk]; rfl
  · rw [if_neg hk, List.getElem?_eq_none (by simp; omega)]; rfl

theorem bitMaskedIndex_ok {mask : List Nat} {length : Nat} (vw lsb : Bool)
    (h : length ≤ mask.length * 8) :
    Content.bitMaskedIndex mask vw length lsb
      = ok ((List.range length).map (fun i => if bitOf mask lsb i = vw then (i : Int) else -1)) := by
  unfold Content.bitMaskedIndex
  have hal : (alloc ((mask.length : Int) * 8)).length = mask.length * 8 := by
    rw [show ((mask.length : Int) * 8) = ((mask.length * 8 : Nat) : Int) by push_cast; rfl,
      alloc_length]
  obtain ⟨o, h1, h2, h3⟩ := bitLoop_ok lsb (fun k b => if b = vw then (k : Int) else -1) hal
  have h1' : BitMaskedArray_to_IndexedOptionArray (alloc ((mask.length : Int) * 8)) mask
      mask.length vw lsb = ok o := h1
  rw [h1', bind_ok]
  exact bitLoop_range h h2 h3

theorem bitMaskedByteMask_eq {mask : List Nat} {length : Nat} (vw lsb : Bool)
    (h : length ≤ mask.length * 8) :
    (BitMaskedArray_to_ByteMaskedArray (alloc (mask.length * 8)) mask mask.length vw lsb
      >>= fun bytemask => idxRange bytemask 0 length)
      = ok ((List.range length).map (fun i => if bitOf mask lsb i ≠ vw then 1 else 0)) := by
  have hal : (alloc ((mask.length : Int) * 8)).length = mask.length * 8 := by
    rw [show ((mask.length : Int) * 8) = ((mask.length * 8 : Nat) : Int) by push_cast; rfl,
      alloc_length]
  obtain ⟨o, h1, h2, h3⟩ := BitMaskedArray_to_ByteMaskedArray_ok vw lsb hal
  rw [h1, bind_ok]
  exact bitLoop_range h h2 h3

namespace Content

/-- The value of an element, with a default for unreadable ones. -/
def valD (c : Content) (i : Nat) : Val :=
  match c.val i with
  | .ok v => v
  | _ => .null

theorem valD_eq {c : Content} {i : Nat} {v : Val} (h : c.val i = ok v) : c.valD i = v := by
  simp [valD, h]

theorem val_valD {c : Content} {i : Nat} (h : IsOk (c.val i)) : c.val i = ok (c.valD i) := by
  obtain ⟨v, hv⟩ := h
  rw [hv, valD_eq hv]

theorem toList_valD {c : Content} (h : ∀ i, i < c.len → IsOk (c.val i)) :
    c.toList = ok ((List.range c.len).map c.valD) := by
  unfold toList
  exact mapN_ok' _ (fun i hi => val_valD (h i hi))

theorem toList_inv {c : Content} {vs : List Val} (h : c.toList = ok vs) :
    vs = (List.range c.len).map c.valD ∧ ∀ i, i < c.len → IsOk (c.val i) := by
  have hr : ∀ i, i < c.len → IsOk (c.val i) := fun i hi => ⟨_, mapN_get h hi⟩
  rw [toList_valD hr] at h
  exact ⟨by simpa using h.symm, hr⟩

theorem Picks.toList {c' c : Content} {idx : List Int} (h : Picks c' c idx)
    (hr : ∀ j ∈ idx, IsOk (c.val j.toNat)) :
    c'.toList = ok (idx.map (fun j => c.valD j.toNat)) := by
  unfold Content.toList
  rw [h.1, mapN_eq_ok]
  refine ⟨by simp, ?_⟩
  intro i hi
  have hi' : i < idx.length := by simpa using hi
  rw [h.2 i hi', List.getElem_map]
  exact val_valD (hr _ (List.getElem_mem hi'))

/-! ### What an option-type or indexed node selects -/

/-- Position `i` of an option-type or indexed node: `none` when missing, otherwise the position
in the content. -/
def pick : Content → Nat → Option Nat
  | indexed _ index _, i => if index[i]?.getD (-1) < 0 then none else some (index[i]?.getD 0).toNat
  | indexedOption _ index _, i =>
    if index[i]?.getD (-1) < 0 then none else some (index[i]?.getD 0).toNat
  | byteMasked _ mask vw _, i => if maskOk mask vw i then some i else none
  | bitMasked _ mask vw _ lsb _, i => if bitOf mask lsb i = vw then some i else none
  | _, i => some i

/-- The value of a picked position: missing positions show `None`. -/
def pickVal (c : Content) : Option Nat → R Val
  | none => ok .null
  | some k => c.val k

/-- An index list used as an IndexedOptionArray. -/
theorem indexedOption_val {p : Params} {index : List Int} {c : Content} {i : Nat}
    (hi : i < index.length) (hlt : index[i] < c.len) :
    (indexedOption p index c).val i
      = c.pickVal (if index[i] < 0 then none else some index[i].toNat) := by
  simp only [val]
  rw [rd_nat_ok hi, bind_ok]
  unfold checkIndex pickVal
  by_cases h : index[i] < 0
  · simp [h]
  · simp [h, show ¬ (index[i] ≥ (c.len : Int)) by omega]

/-- The value of an element of an option-type or indexed node, when it can be read. -/
theorem val_pick {c : Content} (hwf : c.WF) (ho : c.isOptionOrIndexed = true) {i : Nat} (hi : i < c.len)
    {v : Val} (hv : c.val i = ok v) :
    c.inner.pickVal (c.pick i) = ok v ∧ ∀ k, c.pick i = some k → k < c.inner.len := by
  cases c <;> simp only [isOptionOrIndexed, Bool.false_eq_true] at ho
  case indexed p index c =>
    simp only [len] at hi
    simp only [val, inner, pick] at hv ⊢
    rw [rd_nat_ok hi, bind_ok] at hv
    simp only [List.getElem?_eq_getElem hi, Option.getD_some]
    unfold checkIndex at hv
    by_cases h : index[i] < 0
    · simp [h] at hv
    · by_cases h2 : index[i] ≥ (c.len : Int)
      · simp [h, h2] at hv
      · simp [h, h2] at hv
        simp [h, pickVal, hv]; omega
  case indexedOption p index c =>
    simp only [len] at hi
    simp only [val, inner, pick] at hv ⊢
    rw [rd_nat_ok hi, bind_ok] at hv
    simp only [List.getElem?_eq_getElem hi, Option.getD_some]
    unfold checkIndex at hv
    by_cases h : index[i] < 0
    · simp [h] at hv
      simp [h, pickVal, hv]
    · by_cases h2 : index[i] ≥ (c.len : Int)
      · simp [h, h2] at hv
      · simp [h, h2] at hv
        simp [h, pickVal, hv]; omega
  case byteMasked p mask vw c =>
    simp only [len] at hi
    simp only [WF] at hwf
    simp only [val, inner, pick] at hv ⊢
    rw [rd_nat_ok hi, bind_ok] at hv
    simp only [maskOk, List.getElem?_eq_getElem hi, Option.getD_some]
    by_cases h : decide (mask[i] ≠ 0) = vw
    · rw [if_pos h] at hv
      simp only [h, decide_true, if_true, pickVal]
      exact ⟨hv, by intro k hk; cases hk; omega⟩
    · rw [if_neg h] at hv
      simp only [h, decide_false, if_false, pickVal, Bool.false_eq_true]
      exact ⟨hv, by intro k hk; cases hk⟩
  case bitMasked p mask vw length lsb c =>
    simp only [len] at hi
    simp only [WF] at hwf
    simp only [val, inner, pick] at hv ⊢
    rw [bitAt_eq (by omega), bind_ok] at hv
    by_cases h : bitOf mask lsb i = vw
    · rw [if_pos h] at hv
      simp only [h, if_true, pickVal]
      exact ⟨hv, by intro k hk; cases hk; omega⟩
    · rw [if_neg h] at hv
      simp only [h, if_false, pickVal]
      exact ⟨hv, by intro k hk; cases hk⟩
  case unmasked p c =>
    simp only [len] at hi
    simp only [val, inner, pick, pickVal] at hv ⊢
    exact ⟨hv, by intro k hk; cases hk; exact hi⟩

/-- `pick` as a list of integers with -1 for missing. -/
def pickIndex (c : Content) : List Int :=
  (List.range c.len).map (fun i => match c.pick i with | none => -1 | some k => (k : Int))

theorem innerIndex_ok {c : Content} (hwf : c.WF) (ho : c.isOptionOrIndexed = true) :
    ∃ b idx, c.innerIndex = ok (some (b, idx, c.inner)) ∧ idx.length = c.len ∧
      (∀ i (h : i < idx.length),
        (if idx[i] < 0 then none else some idx[i].toNat) = c.pick i) ∧
      (b = c.isOption) := by
  cases c <;> simp only [isOptionOrIndexed, Bool.false_eq_true] at ho
  case indexed p index c =>
    refine ⟨_, _, rfl, rfl, ?_, rfl⟩
    intro i hi
    simp [pick, hi]
  case indexedOption p index c =>
    refine ⟨_, _, rfl, rfl, ?_, rfl⟩
    intro i hi
    simp [pick, hi]
  case byteMasked p mask vw c =>
    refine ⟨true, (List.range mask.length).map (fun i => if maskOk mask vw i then (i : Int) else -1),
      ?_, ?_, ?_, rfl⟩
    · simp only [innerIndex, byteMaskedIndex]
      rw [ByteMaskedArray_toIndexedOptionArray_ok, bind_ok]
      rfl
    · simp [len]
    · intro i hi
      simp only [pick, List.getElem_map, List.getElem_range]
      split <;> simp
  case bitMasked p mask vw length lsb c =>
    simp only [WF] at hwf
    refine ⟨true, (List.range length).map (fun i => if bitOf mask lsb i = vw then (i : Int) else -1),
      ?_, ?_, ?_, rfl⟩
    · simp only [innerIndex]
      rw [bitMaskedIndex_ok vw lsb hwf.1, bind_ok]
      rfl
    · simp [len]
    · intro i hi
      simp only [pick, List.getElem_map, List.getElem_range]
      split <;> simp
  case unmasked p c =>
    refine ⟨true, (List.range c.len).map (fun (i : Nat) => (i : Int)), ?_, ?_, ?_, rfl⟩
    · simp only [innerIndex, unmaskedIndex]
      rw [carry_arange_ok, bind_ok]
      rfl
    · simp [len]
    · intro i hi
      simp [pick]

/-- Rebuilding an option-type node around an index that picks the same positions shows the same
values. -/
theorem repick_toList {p : Params} {c : Content} {idx : List Int} (hwf : c.WF)
    (ho : c.isOptionOrIndexed = true) (hl : idx.length = c.len)
    (hp : ∀ i (h : i < idx.length), (if idx[i] < 0 then none else some idx[i].toNat) = c.pick i)
    {vs : List Val} (hv : c.toList = ok vs) :
    (indexedOption p idx c.inner).toList = ok vs := by
  have hlen := mapN_length hv
  unfold Content.toList
  rw [mapN_eq_ok]
  refine ⟨by simp only [len]; omega, ?_⟩
  intro i hi
  have hvi := mapN_get hv (show i < c.len by omega)
  obtain ⟨h1, h2⟩ := val_pick hwf ho (by omega) hvi
  have hpi := hp i (by omega)
  rw [indexedOption_val (by omega), hpi, h1]
  by_cases h : idx[i] < 0
  · omega
  · rw [if_neg h] at hpi
    have := h2 _ hpi.symm
    omega

/-! ### simplify_optiontype -/

theorem IndexedArray_simplify_ok {index inner : List Int} (f : Nat → Int)
    (h : ∀ i (hi : i < index.length), (index[i] < 0 ∧ f i = -1) ∨
      (0 ≤ index[i] ∧ ∃ (hj : index[i].toNat < inner.length), f i = inner[index[i].toNat])) :
    IndexedArray_simplify (alloc index.length) index index.length inner inner.length
      = ok ((List.range index.length).map f) := by
  unfold IndexedArray_simplify
  refine forN_fill_eq _ (alloc_length _) (fun i hi => ?_)
  rw [rd_nat_ok hi, bind_ok]
  rcases h i hi with ⟨h1, h2⟩ | ⟨h1, hj, h2⟩
  · rw [if_pos h1, h2]
  · rw [if_neg (by omega), if_neg (by omega), rd_ok h1 (by omega), h2]

/-- Composition of an outer option/indexed node (given by the positions it picks) with an inner
one. -/
theorem indexedSimplify_ok {b : Bool} {p : Params} {index : List Int} {c : Content} {vs : List Val}
    (hwf : c.WF)
    (hv : (if b then indexedOption p index c else indexed p index c).toList = ok vs) :
    ∃ c', indexedSimplify b p index c = ok c' ∧ c'.toList = ok vs ∧ c'.WF ∧
      (c.isOptionOrIndexed = false →
        c' = if b then indexedOption p index c else indexed p index c) ∧
      (c.isOptionOrIndexed = true → ∃ idx,
        c' = (if b || c.isOption then indexedOption p idx c.inner else indexed p idx c.inner) ∧
        IndexedArray_validity idx idx.length c.inner.len (b || c.isOption) = ok ()) := by
  have hlo : (if b then indexedOption p index c else indexed p index c).len = index.length := by
    cases b <;> rfl
  have hl := mapN_length hv
  rw [hlo] at hl
  by_cases ho : c.isOptionOrIndexed = true
  · obtain ⟨bi, inn, h1, h2, h3, h4⟩ := innerIndex_ok hwf ho
    -- what is known about every outer position
    have hout : ∀ i (hi : i < index.length), (b = true ∧ index[i] < 0 ∧ vs[i] = .null) ∨
        (0 ≤ index[i] ∧ index[i] < c.len ∧ c.val index[i].toNat = ok vs[i]) := by
      intro i hi
      have hvi := mapN_get hv (show i < _ by rw [hlo]; exact hi)
      cases b with
      | true =>
        simp only [if_true] at hvi
        obtain ⟨g1, g2⟩ := val_pick (c := indexedOption p index c) hwf rfl hi hvi
        simp only [pick, inner, List.getElem?_eq_getElem hi, Option.getD_some] at g1 g2
        by_cases hneg : index[i] < 0
        · simp only [hneg, if_true, pickVal] at g1
          exact Or.inl ⟨rfl, hneg, by simpa using g1.symm⟩
        · simp only [hneg, if_false, pickVal] at g1 g2
          have := g2 _ rfl
          exact Or.inr ⟨by omega, by omega, g1⟩
      | false =>
        simp only [Bool.false_eq_true, if_false] at hvi
        simp only [val] at hvi
        rw [rd_nat_ok hi, bind_ok] at hvi
        unfold checkIndex at hvi
        by_cases hneg : index[i] < 0
        · simp [hneg] at hvi
        · by_cases hge : index[i] ≥ (c.len : Int)
          · simp [hneg, hge] at hvi
          · simp only [hneg, hge, if_false, bind_ok] at hvi
            exact Or.inr ⟨by omega, by omega, hvi⟩
    set f : Nat → Int := fun i =>
      if index[i]?.getD (-1) < 0 then -1 else inn[(index[i]?.getD 0).toNat]?.getD 0 with hf
    have hs := IndexedArray_simplify_ok (index := index) (inner := inn) f (by
      intro i hi
      rw [hf]
      simp only [List.getElem?_eq_getElem hi, Option.getD_some]
      rcases hout i hi with ⟨_, g2, _⟩ | ⟨g1, g2, _⟩
      · exact Or.inl ⟨g2, by simp [g2]⟩
      · have hj : index[i].toNat < inn.length := by omega
        refine Or.inr ⟨g1, hj, ?_⟩
        rw [if_neg (by omega), List.getElem?_eq_getElem hj, Option.getD_some])
    -- what is known about every position of the result
    have hres : ∀ i (hi : i < index.length),
        f i < c.inner.len ∧ ((b || bi) = false → 0 ≤ f i) ∧
        c.inner.pickVal (if f i < 0 then none else some (f i).toNat) = ok vs[i] := by
      intro i hi
      rw [hf]
      simp only [List.getElem?_eq_getElem hi, Option.getD_some]
      rcases hout i hi with ⟨g0, g2, g3⟩ | ⟨g1, g2, g3⟩
      · refine ⟨by simp only [g2, if_true]; omega, by simp [g0], ?_⟩
        simp [g2, pickVal, g3]
      · have hj : index[i].toNat < inn.length := by omega
        obtain ⟨k1, k2⟩ := val_pick hwf ho (by omega) g3
        have h3' := h3 _ hj
        rw [if_neg (by omega), List.getElem?_eq_getElem hj, Option.getD_some, h3']
        refine ⟨?_, ?_, k1⟩
        · by_cases hneg : inn[index[i].toNat] < 0
          · omega
          · rw [if_neg hneg] at h3'
            have := k2 _ h3'.symm
            omega
        · intro hbb
          by_contra hneg
          rw [if_pos (by omega)] at h3'
          have hbi : c.isOption = false := by rw [← h4]; simp at hbb; exact hbb.2
          cases c <;> simp only [isOptionOrIndexed, Bool.false_eq_true, isOption, reduceCtorEq] at ho hbi
          rename_i p' index' c''
          simp only [val] at g3
          simp only [len] at g2
          rw [rd_nat_ok (by omega), bind_ok] at g3
          simp only [pick] at h3'
          rw [List.getElem?_eq_getElem (by omega), Option.getD_some] at h3'
          unfold checkIndex at g3
          by_cases hn2 : index'[index[i].toNat] < 0
          · simp [hn2] at g3
          · simp [hn2] at h3'
    have hinWF : c.inner.WF := by
      cases c <;> simp only [isOptionOrIndexed, Bool.false_eq_true] at ho <;>
        simp only [inner, WF] at hwf ⊢ <;> tauto
    refine ⟨if b || bi then indexedOption p ((List.range index.length).map f) c.inner
      else indexed p ((List.range index.length).map f) c.inner, ?_, ?_, ?_, ?_, ?_⟩
    · unfold indexedSimplify
      rw [h1, bind_ok]
      simp only
      rw [hs, bind_ok]
    · unfold toList
      rw [mapN_eq_ok]
      refine ⟨by cases hbb : (b || bi) <;> simp [len, hl], ?_⟩
      intro i hi
      obtain ⟨r1, r2, r3⟩ := hres i (by omega)
      cases hbb : (b || bi) with
      | true =>
        simp only [if_true]
        rw [indexedOption_val (by simp; omega) (by simpa using r1)]
        simpa using r3
      | false =>
        have hn := r2 hbb
        simp only [Bool.false_eq_true, if_false, val]
        rw [rd_nat_ok (by simp; omega), bind_ok]
        simp only [List.getElem_map, List.getElem_range]
        rw [if_neg (by omega)] at r3
        unfold checkIndex
        rw [if_neg (by omega), if_neg (by omega)]
        exact r3
    · cases (b || bi) <;> exact hinWF
    · intro h; rw [h] at ho; cases ho
    · intro _
      refine ⟨_, by rw [h4], ?_⟩
      rw [IndexedArray_validity_ok]
      intro i hi
      simp only [List.length_map, List.length_range] at hi
      obtain ⟨r1, r2, _⟩ := hres i hi
      simp only [List.getElem_map, List.getElem_range]
      rw [← h4]
      exact ⟨r1, r2⟩
  · have hn : c.innerIndex = ok none := by
      cases c <;> simp [isOptionOrIndexed] at ho <;> rfl
    refine ⟨if b then indexedOption p index c else indexed p index c, ?_, hv, ?_, ?_, ?_⟩
    · unfold indexedSimplify
      rw [hn, bind_ok]
    · cases b <;> exact hwf
    · intro _; rfl
    · intro h; exact absurd h ho

theorem nesting_zero {c : Content} : c.isOptionOrIndexed = false ↔ c.nesting = 0 := by
  cases c <;> simp [isOptionOrIndexed, nesting]

theorem nesting_inner {c : Content} (h : c.isOptionOrIndexed = true) :
    c.nesting = c.inner.nesting + 1 := by
  cases c <;> simp only [isOptionOrIndexed, Bool.false_eq_true] at h <;> rfl

theorem simplifyOption_ok {c : Content} (hwf : c.WF) {vs : List Val} (hv : c.toList = ok vs) :
    ∃ c', c.simplifyOption = ok c' ∧ c'.toList = ok vs ∧ c'.WF ∧
      (c.nesting ≤ 1 → c' = c) ∧
      (2 ≤ c.nesting → c'.nesting = c.nesting - 1 ∧
        (c.params.arr = .none → c.inner.validity = ok () → c'.validity = ok ())) := by
  -- the cases that go through `indexedSimplify`
  have key : ∀ (b : Bool) (p : Params) (index : List Int) (d : Content), d.WF →
      (if b then indexedOption p index d else indexed p index d).toList = ok vs →
      ∃ c', indexedSimplify b p index d = ok c' ∧ c'.toList = ok vs ∧ c'.WF ∧
        (d.isOptionOrIndexed = false →
          c' = if b then indexedOption p index d else indexed p index d) ∧
        (d.isOptionOrIndexed = true → c'.nesting = d.nesting ∧
          (p.arr = .none → d.validity = ok () → c'.validity = ok ())) := by
    intro b p index d hd hvd
    obtain ⟨c', h1, h2, h3, h4, h5⟩ := indexedSimplify_ok hd hvd
    refine ⟨c', h1, h2, h3, h4, ?_⟩
    intro ho
    obtain ⟨idx, g1, g2⟩ := h5 ho
    refine ⟨?_, ?_⟩
    · rw [nesting_inner ho, g1]
      cases (b || d.isOption) <;> rfl
    · intro hp hval
      have hin : d.inner.nestedOk = ok () ∧ d.inner.validity = ok () := by
        have hu : ∀ x : Unit, x = () := fun _ => rfl
        cases d <;> simp only [isOptionOrIndexed, Bool.false_eq_true] at ho <;>
          simp only [validity, bind_eq_ok, inner] at hval ⊢
        · obtain ⟨_, _, _, _, ⟨⟩, h1, h2⟩ := hval; exact ⟨h1, h2⟩
        · obtain ⟨_, _, _, _, ⟨⟩, h1, h2⟩ := hval; exact ⟨h1, h2⟩
        · obtain ⟨_, _, h1⟩ := hval
          split at h1
          · cases h1
          · rw [bind_eq_ok] at h1; obtain ⟨⟨⟩, h1, h2⟩ := h1; exact ⟨h1, h2⟩
        · obtain ⟨_, _, h1⟩ := hval
          split at h1
          · cases h1
          · split at h1
            · cases h1
            · rw [bind_eq_ok] at h1; obtain ⟨⟨⟩, h1, h2⟩ := h1; exact ⟨h1, h2⟩
        · obtain ⟨_, _, ⟨⟩, h1, h2⟩ := hval; exact ⟨h1, h2⟩
      have hpar : paramsOk p true = ok () := by simp [paramsOk, hp]
      rw [g1]
      cases hbb : (b || d.isOption) with
      | true =>
        rw [hbb] at g2
        simp only [if_true, validity]
        rw [hpar, bind_ok, g2, bind_ok, hin.1, bind_ok, hin.2]
      | false =>
        rw [hbb] at g2
        simp only [Bool.false_eq_true, if_false, validity]
        rw [hpar, bind_ok, g2, bind_ok, hin.1, bind_ok, hin.2]
  cases c
  case indexed p index d =>
    obtain ⟨c', h1, h2, h3, h4, h5⟩ := key false p index d hwf hv
    refine ⟨c', h1, h2, h3, ?_, ?_⟩
    · intro hn
      exact h4 (nesting_zero.mpr (by simp only [nesting] at hn; omega))
    · intro hn
      simp only [nesting] at hn ⊢
      have ho : d.isOptionOrIndexed = true := by
        by_contra hc
        have := nesting_zero.mp (by simpa using hc)
        omega
      exact ⟨by rw [(h5 ho).1]; omega, (h5 ho).2⟩
  case indexedOption p index d =>
    obtain ⟨c', h1, h2, h3, h4, h5⟩ := key true p index d hwf hv
    refine ⟨c', h1, h2, h3, ?_, ?_⟩
    · intro hn
      exact h4 (nesting_zero.mpr (by simp only [nesting] at hn; omega))
    · intro hn
      simp only [nesting] at hn ⊢
      have ho : d.isOptionOrIndexed = true := by
        by_contra hc
        have := nesting_zero.mp (by simpa using hc)
        omega
      exact ⟨by rw [(h5 ho).1]; omega, (h5 ho).2⟩
  case byteMasked p mask vw d =>
    by_cases ho : d.isOptionOrIndexed = true
    · obtain ⟨b, idx, g1, g2, g3, _⟩ := innerIndex_ok (c := byteMasked p mask vw d) hwf rfl
      have hidx : byteMaskedIndex mask vw = ok idx := by
        simp only [innerIndex, bind_eq_ok] at g1
        obtain ⟨a, ha, hb⟩ := g1
        simp at hb
        rw [ha, hb.2.1]
      have hv' := repick_toList (p := p) hwf rfl g2 g3 hv
      simp only [inner] at hv'
      obtain ⟨c', h1, h2, h3, h4, h5⟩ := key true p idx d hwf.2 hv'
      refine ⟨c', ?_, h2, h3, ?_, ?_⟩
      · simp only [simplifyOption, ho, if_true]
        rw [hidx, bind_ok, h1]
      · intro hn
        simp only [nesting] at hn
        have := nesting_inner ho
        omega
      · intro hn
        simp only [nesting]
        exact ⟨by rw [(h5 ho).1]; omega, (h5 ho).2⟩
    · refine ⟨byteMasked p mask vw d, by simp [simplifyOption, ho], hv, hwf, fun _ => rfl, ?_⟩
      intro hn
      simp only [nesting] at hn
      have := nesting_zero.mp (by simpa using ho)
      omega
  case bitMasked p mask vw length lsb d =>
    by_cases ho : d.isOptionOrIndexed = true
    · obtain ⟨b, idx, g1, g2, g3, _⟩ :=
        innerIndex_ok (c := bitMasked p mask vw length lsb d) hwf rfl
      have hidx : bitMaskedIndex mask vw length lsb = ok idx := by
        simp only [innerIndex, bind_eq_ok] at g1
        obtain ⟨a, ha, hb⟩ := g1
        simp at hb
        rw [ha, hb.2.1]
      have hv' := repick_toList (p := p) hwf rfl g2 g3 hv
      simp only [inner] at hv'
      obtain ⟨c', h1, h2, h3, h4, h5⟩ := key true p idx d hwf.2.2 hv'
      refine ⟨c', ?_, h2, h3, ?_, ?_⟩
      · simp only [simplifyOption, ho, if_true]
        rw [hidx, bind_ok, h1]
      · intro hn
        simp only [nesting] at hn
        have := nesting_inner ho
        omega
      · intro hn
        simp only [nesting]
        exact ⟨by rw [(h5 ho).1]; omega, (h5 ho).2⟩
    · refine ⟨bitMasked p mask vw length lsb d, by simp [simplifyOption, ho], hv, hwf,
        fun _ => rfl, ?_⟩
      intro hn
      simp only [nesting] at hn
      have := nesting_zero.mp (by simpa using ho)
      omega
  case unmasked p d =>
    by_cases ho : d.isOptionOrIndexed = true
    · refine ⟨d, by simp [simplifyOption, ho], ?_, hwf, ?_, ?_⟩
      · have : d.toList = (unmasked p d).toList := by
          unfold toList
          simp only [len]
          exact mapN_congr (fun i _ => by simp only [val])
        rw [this, hv]
      · intro hn
        simp only [nesting] at hn
        have := nesting_inner ho
        omega
      · intro hn
        simp only [nesting, inner]
        exact ⟨by omega, fun _ h => h⟩
    · refine ⟨unmasked p d, by simp [simplifyOption, ho], hv, hwf, fun _ => rfl, ?_⟩
      intro hn
      simp only [nesting] at hn
      have := nesting_zero.mp (by simpa using ho)
      omega
  all_goals exact ⟨_, rfl, hv, hwf, fun _ => rfl, fun hn => by simp [nesting] at hn⟩

/-! ### bytemask and project -/

theorem isOption_imp {c : Content} (h : c.isOption = true) : c.isOptionOrIndexed = true := by
  cases c <;> simp_all [isOption, isOptionOrIndexed]

theorem bytemask_ok {c : Content} (hwf : c.WF) (ho : c.isOption = true) :
    ∃ bm, c.bytemask = ok bm ∧ bm.length = c.len ∧
      ∀ i (h : i < bm.length), bm[i] ≠ 0 ↔ c.pick i = none := by
  cases c <;> simp only [isOption, Bool.false_eq_true] at ho
  case indexedOption p index c =>
    refine ⟨(List.range index.length).map (fun i => if index[i]?.getD 0 < 0 then 1 else 0),
      ?_, by simp [len], ?_⟩
    · simp only [bytemask, IndexedArray_mask]
      refine forN_fill_eq _ (alloc_length _) (fun i hi => ?_)
      rw [rd_nat_ok hi, bind_ok]; simp [hi]
    · intro i hi
      have hi' : i < index.length := by simpa using hi
      simp [pick, hi']
  case byteMasked p mask vw c =>
    cases vw with
    | false =>
      refine ⟨mask, by simp [bytemask], rfl, ?_⟩
      intro i hi
      simp [pick, maskOk, hi]
    | true =>
      refine ⟨(List.range mask.length).map (fun i => if decide (mask[i]?.getD 0 ≠ 0) ≠ true then 1 else 0),
        ?_, by simp [len], ?_⟩
      · simp only [bytemask, ByteMaskedArray_mask]
        refine forN_fill_eq _ (alloc_length _) (fun i hi => ?_)
        rw [rd_nat_ok hi, bind_ok]; simp [hi]
      · intro i hi
        have hi' : i < mask.length := by simpa using hi
        simp [pick, maskOk, hi']
  case bitMasked p mask vw length lsb c =>
    simp only [WF] at hwf
    refine ⟨_, by simp only [bytemask]; exact bitMaskedByteMask_eq vw lsb hwf.1, by simp [len], ?_⟩
    intro i hi
    simp [pick]
  case unmasked p c =>
    refine ⟨_, by simp only [bytemask]; exact const_mask_ok 0 _, by simp [len], ?_⟩
    intro i hi
    simp [pick]

/-- The positions that an option-type or indexed node shows, as a carry. -/
def shown (c : Content) : List Int :=
  (List.range c.len).filterMap (fun i => (c.pick i).map (fun (k : Nat) => (k : Int)))

theorem indexedOptionProject_ok {index : List Int} {c : Content}
    (hlt : ∀ i (h : i < index.length), index[i] < c.len) :
    indexedOptionProject index c = c.carry false
      ((List.range index.length).filterMap
        (fun i => if index[i]?.getD 0 ≥ 0 then some (index[i]?.getD 0) else none)) := by
  unfold indexedOptionProject
  have h1 : IndexedArray_numnull index index.length
      = ok ((List.range index.length).countP (fun i => decide (index[i]?.getD 0 < 0))) := by
    unfold IndexedArray_numnull
    refine forN_count _ (fun i hi k => ?_)
    rw [rd_nat_ok hi, bind_ok]; simp [hi]
  rw [h1, bind_ok]
  have hcount : index.length - (List.range index.length).countP (fun i => decide (index[i]?.getD 0 < 0))
      = ((List.range index.length).filterMap
        (fun i => if index[i]?.getD 0 ≥ 0 then some (index[i]?.getD 0) else none)).length := by
    rw [filterMap_length_countP]
    have := countP_sub (List.range index.length) (fun i => decide (index[i]?.getD 0 < 0))
    rw [List.length_range] at this
    rw [this]
    congr 1; funext i
    by_cases h : index[i]?.getD 0 < 0
    · simp [h, show ¬ (0 ≤ index[i]?.getD 0) by omega]
    · simp [h, show 0 ≤ index[i]?.getD 0 by omega]
  have h2 : IndexedArray_flatten_nextcarry
      (alloc ((index.length : Int) - ((List.range index.length).countP
        (fun i => decide (index[i]?.getD 0 < 0)) : Nat))) index index.length c.len
      = ok ((List.range index.length).filterMap
        (fun i => if index[i]?.getD 0 ≥ 0 then some (index[i]?.getD 0) else none)) := by
    unfold IndexedArray_flatten_nextcarry
    rw [forN_push_eq' (fun i => if index[i]?.getD 0 ≥ 0 then some (index[i]?.getD 0) else none)]
    · rfl
    · rw [← hcount]
      have hle : (List.range index.length).countP (fun i => decide (index[i]?.getD 0 < 0))
          ≤ index.length := by
        have := List.countP_le_length (p := fun i => decide (index[i]?.getD 0 < 0))
          (l := List.range index.length)
        simpa using this
      simp only [alloc, List.length_replicate]
      omega
    · intro i hi
      rw [rd_nat_ok hi, bind_ok, if_neg (by have := hlt i hi; omega)]
      simp [hi]
  rw [h2, bind_ok]

theorem byteMaskedProject_ok {mask : List Int} {vw : Bool} {c : Content} :
    byteMaskedProject mask vw c = c.carry false
      ((List.range mask.length).filterMap
        (fun i => if maskOk mask vw i then some (i : Int) else none)) := by
  unfold byteMaskedProject
  have h1 : ByteMaskedArray_numnull mask mask.length vw
      = ok ((List.range mask.length).countP (fun i => !maskOk mask vw i)) := by
    unfold ByteMaskedArray_numnull
    refine forN_count _ (fun i hi k => ?_)
    rw [rd_nat_ok hi, bind_ok]; simp [maskOk, hi]
  rw [h1, bind_ok]
  have hcount : mask.length - (List.range mask.length).countP (fun i => !maskOk mask vw i)
      = ((List.range mask.length).filterMap
        (fun i => if maskOk mask vw i then some (i : Int) else none)).length := by
    rw [filterMap_length_countP]
    have := countP_sub (List.range mask.length) (fun i => !maskOk mask vw i)
    rw [List.length_range] at this
    rw [this]
    congr 1; funext i
    cases maskOk mask vw i <;> simp
  have h2 : ByteMaskedArray_getitem_nextcarry
      (alloc ((mask.length : Int) - ((List.range mask.length).countP
        (fun i => !maskOk mask vw i) : Nat))) mask mask.length vw
      = ok ((List.range mask.length).filterMap
        (fun i => if maskOk mask vw i then some (i : Int) else none)) := by
    unfold ByteMaskedArray_getitem_nextcarry
    rw [forN_push_eq' (fun i => if maskOk mask vw i then some (i : Int) else none)]
    · rfl
    · rw [← hcount]
      have hle : (List.range mask.length).countP (fun i => !maskOk mask vw i)
          ≤ mask.length := by
        have := List.countP_le_length (p := fun i => !maskOk mask vw i)
          (l := List.range mask.length)
        simpa using this
      simp only [alloc, List.length_replicate]
      omega
    · intro i hi
      rw [rd_nat_ok hi, bind_ok]
      simp [maskOk, hi]
  rw [h2, bind_ok]

/-- `project` carries the content to the shown positions. -/
theorem project_eq {c : Content} (hwf : c.WF) (ho : c.isOption = true)
    (hr : ∀ i, i < c.len → IsOk (c.val i)) :
    (∃ p d, c = unmasked p d) ∨ c.project = c.inner.carry false c.shown := by
  cases c <;> simp only [isOption, Bool.false_eq_true] at ho
  case indexedOption p index c =>
    right
    simp only [project, inner]
    have hlt : ∀ i (h : i < index.length), index[i] < c.len := by
      intro i hi
      obtain ⟨v, hv⟩ := hr i hi
      obtain ⟨_, h2⟩ := val_pick (c := indexedOption p index c) hwf rfl hi hv
      simp only [pick, List.getElem?_eq_getElem hi, Option.getD_some, inner] at h2
      by_cases h : index[i] < 0
      · omega
      · rw [if_neg h] at h2
        have := h2 _ rfl
        omega
    rw [indexedOptionProject_ok hlt]
    congr 1
    unfold shown
    simp only [len]
    apply filterMap_congr'
    intro i hi
    have hi' : i < index.length := by simpa using hi
    simp only [pick, List.getElem?_eq_getElem hi', Option.getD_some]
    by_cases h : index[i] < 0
    · simp [h]
    · simp [h, show 0 ≤ index[i] by omega]
  case byteMasked p mask vw c =>
    right
    simp only [project, inner]
    rw [byteMaskedProject_ok]
    congr 1
    unfold shown
    simp only [len, pick]
    apply filterMap_congr'
    intro i hi
    cases maskOk mask vw i <;> simp
  case bitMasked p mask vw length lsb c =>
    right
    simp only [WF] at hwf
    simp only [project, inner]
    obtain ⟨bm, h1, h2, h3⟩ := bitMaskedByteMask_ok lsb hwf.1
    rw [h1, bind_ok, byteMaskedProject_ok]
    congr 1
    unfold shown
    simp only [len, pick, h2]
    apply filterMap_congr'
    intro i hi
    have hi' : i < length := by simpa using hi
    simp only [maskOk, h3 i hi', Option.getD_some]
    cases bitOf mask lsb i <;> cases vw <;> simp
  case unmasked p c => exact Or.inl ⟨p, c, rfl⟩

theorem shown_inRange {c : Content} (hwf : c.WF) (ho : c.isOption = true)
    (hr : ∀ i, i < c.len → IsOk (c.val i)) : InRange c.shown c.inner.len := by
  intro j hj
  unfold shown at hj
  obtain ⟨i, hi, he⟩ := List.mem_filterMap.mp hj
  obtain ⟨v, hv⟩ := hr i (by simpa using hi)
  obtain ⟨_, h2⟩ := val_pick hwf (isOption_imp ho) (by simpa using hi) hv
  cases hp : c.pick i with
  | none => simp [hp] at he
  | some k =>
    simp [hp] at he
    have := h2 k hp
    omega

theorem inner_WF {c : Content} (hwf : c.WF) : c.inner.WF := by
  cases c <;> simp only [inner, WF] at hwf ⊢ <;> tauto

/-- `project` shows the values of the non-missing positions, in order. -/
theorem project_ok {c : Content} (hwf : c.WF) (ho : c.isOption = true) {vs : List Val}
    (hv : c.toList = ok vs) :
    ∃ c', c.project = ok c' ∧ c'.WF ∧
      c'.toList = ok ((List.range c.len).filterMap
        (fun i => if (c.pick i).isSome then vs[i]? else none)) := by
  have hr : ∀ i, i < c.len → IsOk (c.val i) := fun i hi => ⟨_, mapN_get hv hi⟩
  have hlen := mapN_length hv
  rcases project_eq hwf ho hr with ⟨p, d, rfl⟩ | heq
  · refine ⟨d, rfl, hwf, ?_⟩
    have : d.toList = (unmasked p d).toList := by
      unfold toList
      simp only [len]
      exact mapN_congr (fun i _ => by simp only [val])
    rw [this, hv]
    congr 1
    simp only [pick, Option.isSome_some, if_true]
    have := filterMap_range_get vs 0 vs.length
    simp only [Nat.zero_add, List.drop_zero, List.take_length] at this
    simp only [len] at hlen ⊢
    rw [← hlen, this]
  · have hin := shown_inRange hwf ho hr
    obtain ⟨c', g1, g2, g3, g4⟩ := carry_ok (inner_WF hwf) false hin
    refine ⟨c', by rw [heq, g1], g2, ?_⟩
    have hsh := Picks.toList ⟨g3, g4⟩ (by
      intro j hj
      unfold shown at hj
      obtain ⟨i, hi, he⟩ := List.mem_filterMap.mp hj
      have hi' : i < c.len := by simpa using hi
      obtain ⟨h1, _⟩ := val_pick hwf (isOption_imp ho) hi' (mapN_get hv hi')
      cases hp : c.pick i with
      | none => simp [hp] at he
      | some k =>
        simp [hp] at he
        subst he
        simp only [hp, pickVal] at h1
        exact ⟨_, h1⟩)
    rw [hsh]
    congr 1
    unfold shown
    rw [List.map_filterMap]
    apply filterMap_congr'
    intro i hi
    have hi' : i < c.len := by simpa using hi
    obtain ⟨h1, _⟩ := val_pick hwf (isOption_imp ho) hi' (mapN_get hv hi')
    cases hp : c.pick i with
    | none => simp
    | some k =>
      simp only [hp, pickVal] at h1
      simp only [Option.map_some, Option.isSome_some, if_true, Int.toNat_natCast]
      rw [valD_eq h1, List.getElem?_eq_getElem (by omega)]

/-- With no `None` inside the content, an element shows `None` exactly when it is masked. -/
theorem isNull_iff_pick {c : Content} (hwf : c.WF) (ho : c.isOption = true) {vs us : List Val}
    (hv : c.toList = ok vs) (hu : c.inner.toList = ok us) (hn : ∀ u ∈ us, u.isNull = false)
    {i : Nat} (hi : i < vs.length) : vs[i].isNull = decide (c.pick i = none) := by
  have hl := mapN_length hv
  have hlu := mapN_length hu
  obtain ⟨h1, h2⟩ := val_pick (i := i) hwf (isOption_imp ho) (by omega) (mapN_get hv (by omega))
  cases hp : c.pick i with
  | none =>
    simp only [hp, pickVal] at h1
    injection h1 with h1
    rw [← h1]; rfl
  | some k =>
    have hk := h2 k hp
    simp only [hp, pickVal] at h1
    rw [mapN_get hu hk] at h1
    injection h1 with h1
    have := hn _ (List.getElem_mem (show k < us.length by omega))
    rw [h1] at this
    rw [this]; simp

theorem paramsOk_indexed {p : Params} {b : Bool} (h : paramsOk p b = ok ()) :
    paramsOk p true = ok () := by
  unfold paramsOk at h ⊢
  cases ha : p.arr <;> simp_all

theorem toIndexedOption_valid {c : Content} (h : c.validity = ok ()) (ho : c.isOption = true)
    {b : Bool} {idx : List Int} (hi : c.innerIndex = ok (some (b, idx, c.inner))) :
    c.toIndexedOption = ok (indexedOption c.params idx c.inner) ∧
      (indexedOption c.params idx c.inner).validity = ok () := by
  obtain ⟨hwf, hr⟩ := valid_readable h
  have hnest : paramsOk c.params true = ok () ∧ c.inner.nestedOk = ok () ∧
      c.inner.validity = ok () := by
    cases c <;> simp only [isOption, Bool.false_eq_true] at ho <;>
      simp only [validity, bind_eq_ok] at h <;> simp only [params, inner]
    case indexedOption => obtain ⟨_, h1, _, h2, _, h3, h4⟩ := h; exact ⟨h1, h3, h4⟩
    case byteMasked =>
      obtain ⟨_, h1, h2⟩ := h
      split at h2
      · simp at h2
      · simp only [bind_eq_ok] at h2
        obtain ⟨_, h3, h4⟩ := h2; exact ⟨paramsOk_indexed h1, h3, h4⟩
    case bitMasked =>
      obtain ⟨_, h1, h2⟩ := h
      split at h2
      · simp at h2
      split at h2
      · simp at h2
      · simp only [bind_eq_ok] at h2
        obtain ⟨_, h3, h4⟩ := h2; exact ⟨paramsOk_indexed h1, h3, h4⟩
    case unmasked => obtain ⟨_, h1, _, h3, h4⟩ := h; exact ⟨paramsOk_indexed h1, h3, h4⟩
  obtain ⟨h1, h2, h3⟩ := hnest
  obtain ⟨b', idx', g1, g2, g3, g4⟩ := innerIndex_ok hwf (isOption_imp ho)
  rw [hi] at g1
  simp only [ok.injEq, Option.some.injEq, Prod.mk.injEq, and_true] at g1
  obtain ⟨rfl, rfl⟩ := g1
  constructor
  · cases c <;> simp only [isOption, Bool.false_eq_true] at ho <;>
      simp only [innerIndex, bind_eq_ok, ok.injEq, Option.some.injEq, Prod.mk.injEq] at hi <;>
      simp only [toIndexedOption, params, inner]
    case indexedOption => obtain ⟨_, rfl, _⟩ := hi; rfl
    all_goals
      obtain ⟨x, hx, _, rfl, _⟩ := hi
      rw [hx]; rfl
  · simp only [validity, h1, bind_ok, h2, h3]
    rw [IndexedArray_validity_ok.mpr, bind_ok]
    intro i hi'
    refine ⟨?_, by simp⟩
    obtain ⟨v, hv⟩ := hr i (by omega)
    obtain ⟨_, hp⟩ := val_pick hwf (isOption_imp ho) (by omega) hv
    rw [← g3 i hi'] at hp
    by_cases hneg : idx[i] < 0
    · omega
    · have := hp _ (by rw [if_neg hneg])
      omega

theorem toByteMasked_ok {c : Content} (h : c.validity = ok ()) (ho : c.isOption = true)
    (hi : ∀ p index d, c ≠ .indexedOption p index d)
    {vs : List Val} (hv : c.toList = ok vs) :
    ∃ p mask vw d, c.toByteMasked = ok (.byteMasked p mask vw d) ∧
      (byteMasked p mask vw d).toList = ok vs ∧
      (byteMasked p mask vw d).validity = ok () := by
  cases c <;> simp only [isOption, Bool.false_eq_true] at ho
  case indexedOption p index d => exact absurd rfl (hi p index d)
  case byteMasked p mask vw d => exact ⟨p, mask, vw, d, rfl, hv, h⟩
  case bitMasked p mask vw length lsb d =>
    simp only [validity, bind_eq_ok] at h
    obtain ⟨_, h1, h2⟩ := h
    split at h2
    · simp at h2
    split at h2
    · simp at h2
    obtain ⟨bm, g1, g2, g3⟩ := bitMaskedByteMask_ok (mask := mask) (length := length) lsb (by omega)
    refine ⟨p, bm, vw, d, by simp only [toByteMasked, g1, bind_ok], ?_, ?_⟩
    · rw [← hv]
      unfold toList
      simp only [len, g2]
      exact mapN_congr (fun i hi' => bitMasked_val (by omega) g2 g3 hi')
    · simp only [validity, h1, bind_ok]
      rw [if_neg (by omega)]
      exact h2
  case unmasked p d =>
    simp only [validity, bind_eq_ok] at h
    obtain ⟨_, h1, _, h2, h3⟩ := h
    refine ⟨p, (List.range d.len).map (fun _ => 1), true, d,
      by simp only [toByteMasked, const_mask_ok, bind_ok], ?_, ?_⟩
    · rw [← hv]
      unfold toList
      simp only [len, List.length_map, List.length_range]
      refine mapN_congr (fun i hi' => ?_)
      simp only [val]
      rw [rd_nat_ok (by simpa using hi')]
      simp
    · simp only [validity, h1, h2, h3, bind_ok]
      rw [if_neg (by simp)]

end Content
end Awk
