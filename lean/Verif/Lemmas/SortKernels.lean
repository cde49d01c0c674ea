import Verif.Lemmas.QuickSort
import Verif.Lemmas.ReduceNonlocal
import Verif.Lemmas.ReduceTotal
import Verif.Spec.Sort
/-
The kernels that sort numbers.
-/

namespace Awk
open R

/-! ### The order -/

theorem ordered_eq (asc : Bool) (x y : Atom) : x.ordered asc y = Spec.inOrder asc x y := by
  unfold Atom.ordered Spec.inOrder
  rw [lt_eq, lt_eq]

theorem inOrder_compares (asc : Bool) (dt : DType) :
    Compares (Spec.OfType dt) (fun x y => ok (x.ordered asc y)) (Spec.inOrder asc) where
  eval x y _ _ := by simp only [ordered_eq]
  total x y hx hy := by
    have h := less_strict dt
    have h1 := h.irrefl x hx
    have h2 := h.trans x y x hx hy hx
    rw [h1] at h2
    unfold Spec.inOrder
    cases asc <;> simp only [Bool.false_eq_true, if_false, if_true] <;>
      cases ha : Spec.less x y <;> cases hb : Spec.less y x <;> simp_all
  trans x y z hx hy hz := by
    have h := less_strict dt
    have h1 := h.neg x y z hx hy hz
    have h2 := h.neg z y x hz hy hx
    unfold Spec.inOrder
    cases asc <;> simp only [Bool.false_eq_true, if_false, if_true, Bool.not_eq_true'] <;> intro a b
    · cases hc : Spec.less x z with
      | false => rfl
      | true => rcases h1 hc with h | h <;> simp_all
    · cases hc : Spec.less z x with
      | false => rfl
      | true => rcases h2 hc with h | h <;> simp_all

/-- Part of a buffer. -/
def part (xs : List α) (s n : Nat) : List α := (xs.drop s).take n

theorem part_getElem? {xs : List α} {s n i : Nat} (h : i < n) : (part xs s n)[i]? = xs[s + i]? := by
  unfold part
  rw [List.getElem?_take, if_pos h, List.getElem?_drop]

theorem part_length {xs : List α} {s n : Nat} (h : s + n ≤ xs.length) : (part xs s n).length = n := by
  unfold part
  rw [List.length_take, List.length_drop]; omega

theorem part_ext {xs ys : List α} {s n : Nat} (h : ∀ i, s ≤ i → i < s + n → xs[i]? = ys[i]?) :
    part xs s n = part ys s n := by
  apply List.ext_getElem?
  intro i
  by_cases hi : i < n
  · rw [part_getElem? hi, part_getElem? hi, h _ (by omega) (by omega)]
  · unfold part
    rw [List.getElem?_take, List.getElem?_take, if_neg hi, if_neg hi]

theorem part_iota {n s k : Nat} (h : s + k ≤ n) :
    part (iota n) s k = (List.range k).map (fun (i : Nat) => ((s + i : Nat) : Int)) := by
  apply List.ext_getElem?
  intro i
  by_cases hi : i < k
  · rw [part_getElem? hi, iota]
    simp only [List.getElem?_map]
    rw [List.getElem?_range (by omega), List.getElem?_range hi]; rfl
  · rw [List.getElem?_eq_none (by rw [part_length (by simpa [iota] using h)]; omega),
      List.getElem?_eq_none (by simp; omega)]

/-! ### The stable sort -/

theorem strictWeak_asymm {lt : Int → Int → Bool} {xs : List Int} (h : strictWeak lt xs = true) {a b : Int}
    (ha : a ∈ xs) (hb : b ∈ xs) (hab : a ≠ b) (h1 : lt b a = true) : lt a b = false := by
  unfold strictWeak at h
  rw [List.all_eq_true] at h
  have h := h a ha
  rw [List.all_eq_true] at h
  have h := h b hb
  rw [Bool.and_eq_true] at h
  have := h.1
  cases hc : lt a b <;> simp_all

theorem strictWeak_neg {lt : Int → Int → Bool} {xs : List Int} (h : strictWeak lt xs = true) {a b c : Int}
    (ha : a ∈ xs) (hb : b ∈ xs) (hc : c ∈ xs) (hac : a ≠ c) (h1 : lt a b = false) (h2 : lt b c = false) :
    lt a c = false := by
  unfold strictWeak at h
  rw [List.all_eq_true] at h
  have h := h a ha
  rw [List.all_eq_true] at h
  have h := h b hb
  rw [Bool.and_eq_true, List.all_eq_true] at h
  have := h.2 c hc
  cases hd : lt a c <;> simp_all

theorem insertBy_perm (lt : Int → Int → Bool) (a : Int) (l : List Int) : (insertBy lt a l).Perm (a :: l) := by
  induction l with
  | nil => exact List.Perm.refl _
  | cons b l ih =>
    unfold insertBy
    split
    · exact (ih.cons b).trans (List.Perm.swap a b l)
    · exact List.Perm.refl _

theorem foldr_insertBy_perm (lt : Int → Int → Bool) (l : List Int) : (l.foldr (insertBy lt) []).Perm l := by
  induction l with
  | nil => exact List.Perm.refl _
  | cons a l ih => exact (insertBy_perm lt a _).trans (ih.cons a)

/-- What a stable sort gives. -/
def stableOrder (lt : Int → Int → Bool) (a b : Int) : Prop := lt b a = false ∧ (lt a b = false → a < b)

theorem insertBy_sorted {lt : Int → Int → Bool} {xs : List Int} (h : strictWeak lt xs = true) {a : Int}
    (ha : a ∈ xs) {l : List Int} (hl : ∀ b ∈ l, b ∈ xs ∧ a < b) (hs : l.Pairwise (stableOrder lt)) :
    (insertBy lt a l).Pairwise (stableOrder lt) := by
  induction l with
  | nil => exact List.pairwise_singleton _ _
  | cons b l ih =>
    rw [List.pairwise_cons] at hs
    obtain ⟨hb, hab⟩ := hl b List.mem_cons_self
    have hl' : ∀ c ∈ l, c ∈ xs ∧ a < c := fun c hc => hl c (List.mem_cons_of_mem _ hc)
    unfold insertBy
    cases hba : lt b a with
    | true =>
      rw [if_pos rfl, List.pairwise_cons]
      refine ⟨?_, ih hl' hs.2⟩
      intro c hc
      rcases List.mem_cons.mp ((insertBy_perm lt a l).mem_iff.mp hc) with rfl | hc
      · exact ⟨strictWeak_asymm h ha hb (by omega) hba, by rw [hba]; simp⟩
      · exact hs.1 c hc
    | false =>
      rw [if_neg (by simp), List.pairwise_cons, List.pairwise_cons]
      refine ⟨?_, hs⟩
      intro c hc
      rcases List.mem_cons.mp hc with rfl | hc
      · exact ⟨hba, fun _ => hab⟩
      · obtain ⟨c1, c2⟩ := hl' c hc
        exact ⟨strictWeak_neg h c1 hb ha (by omega) (hs.1 c hc).1 hba, fun _ => c2⟩

theorem stableSort_ok {lt : Int → Int → Bool} {xs : List Int} (h : strictWeak lt xs = true)
    (hx : xs.Pairwise (· < ·)) :
    ∃ ys, stableSort lt xs = ok ys ∧ ys.Perm xs ∧ ys.Pairwise (stableOrder lt) := by
  refine ⟨_, by rw [stableSort, if_pos h], foldr_insertBy_perm lt xs, ?_⟩
  have : ∀ l : List Int, (∀ b ∈ l, b ∈ xs) → l.Pairwise (· < ·) →
      (l.foldr (insertBy lt) []).Pairwise (stableOrder lt) := by
    intro l
    induction l with
    | nil => intro _ _; exact List.Pairwise.nil
    | cons a l ih =>
      intro h1 h2
      rw [List.pairwise_cons] at h2
      rw [List.foldr_cons]
      refine insertBy_sorted h (h1 a List.mem_cons_self) ?_ (ih (fun b hb => h1 b (List.mem_cons_of_mem _ hb)) h2.2)
      intro b hb
      have hb := (foldr_insertBy_perm lt l).mem_iff.mp hb
      exact ⟨h1 b (List.mem_cons_of_mem _ hb), h2.1 b hb⟩
  exact this xs (fun b hb => hb) hx

theorem itemLt_strictWeak (asc : Bool) {dt : DType} {data : List Atom} (hd : ∀ x ∈ data, Spec.OfType dt x)
    {xs : List Int} (hx : ∀ i ∈ xs, 0 ≤ i ∧ i < data.length) : strictWeak (itemLt asc data) xs = true := by
  have hat : ∀ i ∈ xs, ∃ x, data[i.toNat]? = some x ∧ Spec.OfType dt x := by
    intro i hi
    have := hx i hi
    exact ⟨_, List.getElem?_eq_getElem (by omega), hd _ (List.getElem_mem _)⟩
  have hs := less_strict dt
  unfold strictWeak
  rw [List.all_eq_true]
  intro a ha
  rw [List.all_eq_true]
  intro b hb
  obtain ⟨x, x1, x2⟩ := hat a ha
  obtain ⟨y, y1, y2⟩ := hat b hb
  rw [Bool.and_eq_true, List.all_eq_true]
  constructor
  · unfold itemLt
    rw [x1, y1]
    simp only [lt_eq]
    have h1 := hs.trans x y x x2 y2 x2
    rw [hs.irrefl x x2] at h1
    cases h2 : Spec.less x y <;> cases h3 : Spec.less y x <;> simp_all
  · intro c hc
    obtain ⟨z, z1, z2⟩ := hat c hc
    unfold itemLt
    rw [x1, y1, z1]
    simp only [lt_eq]
    have h1 := hs.neg x y z x2 y2 z2
    have h2 := hs.neg z y x z2 y2 x2
    cases asc <;> simp only [Bool.false_eq_true, if_false, if_true]
    · cases h3 : Spec.less z x
      · simp
      · rcases h2 h3 with h | h <;> simp [h]
    · cases h3 : Spec.less x z
      · simp
      · rcases h1 h3 with h | h <;> simp [h]

/-! ### The ranges -/

/-- A run of equal parents begins at `i`. -/
def runBegins (g : Nat → Nat) (i : Nat) : Bool := decide (0 < i ∧ g (i - 1) ≠ g i)

/-- The boundaries of the runs of equal parents. -/
def runOffsets (g : Nat → Nat) (n : Nat) : List Nat := 0 :: keptPos (ob (runBegins g)) n ++ [n]

theorem sorting_ranges_length_ok (g : Nat → Nat) (n : Nat) :
    sorting_ranges_length (nats g n) n = ok ((cnt (ob (runBegins g)) n + 2 : Nat) : Int) := by
  unfold sorting_ranges_length forFrom
  obtain ⟨s, h1, h2⟩ := forN_inv (n := ((n : Int) - 1).toNat)
    (body := fun (i : Nat) length => rd (nats g n) ((1 + (i : Int)) - 1) >>= fun a => rd (nats g n) (1 + (i : Int)) >>= fun b =>
      ok (if a ≠ b then length + 1 else length)) (s := (2 : Int))
    (fun i s => s = ((cnt (ob (runBegins g)) (i + 1) + 2 : Nat) : Int))
    (by rw [cnt_ob_succ]; simp [cnt, runBegins])
    (by
      intro i hi s hs
      rw [show (1 + (i : Int)) - 1 = ((i : Nat) : Int) by omega, show (1 : Int) + (i : Int) = ((i + 1 : Nat) : Int) by omega,
        rd_nats (by omega), bind_ok, rd_nats (by omega), bind_ok]
      refine ⟨_, rfl, ?_⟩
      rw [cnt_ob_succ (n := i + 1), hs]
      by_cases hc : g i = g (i + 1)
      · simp [hc, runBegins]
      · simp only [runBegins, Nat.add_sub_cancel]
        rw [if_pos (by omega), if_pos (by simp [hc])]; omega)
  rw [h1, h2]
  cases n with
  | zero => rw [cnt_ob_succ]; simp [cnt, runBegins]
  | succ n => rw [show ((n + 1 : Nat) : Int) - 1 = (n : Int) by omega, Int.toNat_natCast]

theorem sorting_ranges_ok (g : Nat → Nat) {n : Nat} (hn : 0 < n) :
    sorting_ranges (alloc ((cnt (ob (runBegins g)) n + 2 : Nat) : Int)) ((cnt (ob (runBegins g)) n + 2 : Nat) : Int)
      (nats g n) n = ok ((runOffsets g n).map (fun (i : Nat) => (i : Int))) := by
  unfold sorting_ranges
  have hal := alloc_length (cnt (ob (runBegins g)) n + 2)
  generalize hC : cnt (ob (runBegins g)) n = C at *
  generalize hbuf : alloc ((C + 2 : Nat) : Int) = buf at *
  rw [wr_ok (by omega) (by omega), bind_ok]
  simp only [Int.toNat_zero]
  unfold forFrom
  let Inv := fun (i : Nat) (st : List Int × Int × Int) =>
    st.1.length = C + 2 ∧
    st.1.take (1 + cnt (ob (runBegins g)) (i + 1)) = (0 :: keptPos (ob (runBegins g)) (i + 1)).map (fun (i : Nat) => (i : Int)) ∧
    st.2.1 = ((1 + cnt (ob (runBegins g)) (i + 1) : Nat) : Int) ∧ st.2.2 = ((i + 1 : Nat) : Int)
  obtain ⟨s, h1, h2⟩ := forN_inv (n := ((n : Int) - 1).toNat)
    (body := fun (i : Nat) (st : List Int × Int × Int) =>
      rd (nats g n) ((1 + (i : Int)) - 1) >>= fun a => rd (nats g n) (1 + (i : Int)) >>= fun b =>
      (if a ≠ b then wr st.1 st.2.1 st.2.2 >>= fun toindex => ok (toindex, st.2.1 + 1)
        else ok (st.1, st.2.1)) >>= fun tj =>
      ok (tj.1, tj.2, st.2.2 + 1)) (s := (buf.set 0 0, (1 : Int), (1 : Int))) Inv
    (by
      have hc1 : cnt (ob (runBegins g)) (0 + 1) = 0 := by rw [cnt_ob_succ]; simp [cnt, runBegins]
      have hk1 : keptPos (ob (runBegins g)) (0 + 1) = [] := by
        apply List.eq_nil_of_length_eq_zero; rw [kept_length, hc1]
      refine ⟨by simpa using hal, ?_, ?_, by simp⟩
      · rw [hc1, hk1]
        cases buf with
        | nil => simp at hal
        | cons x l => simp
      · rw [hc1]; rfl)
    (by
      rintro i hi ⟨t, j, k⟩ ⟨i1, i2, i3, i4⟩
      simp only at i1 i2 i3 i4 ⊢
      rw [show (1 + (i : Int)) - 1 = ((i : Nat) : Int) by omega, show (1 : Int) + (i : Int) = ((i + 1 : Nat) : Int) by omega,
        rd_nats (by omega), bind_ok, rd_nats (by omega), bind_ok]
      have hk := kept_succ (ob (runBegins g)) (i + 1)
      have hcs := cnt_ob_succ (runBegins g) (i + 1)
      rw [ob_isSome] at hk
      by_cases hc : g i = g (i + 1)
      · have hrb : runBegins g (i + 1) = false := by simp [runBegins, hc]
        rw [hrb] at hk hcs
        simp only [Bool.false_eq_true, if_false, List.append_nil, Nat.add_zero] at hk hcs
        rw [if_neg (by simp [hc]), bind_ok]
        refine ⟨_, rfl, i1, ?_, ?_, ?_⟩
        · simp only; rw [hk, hcs]; exact i2
        · simp only; rw [hcs]; exact i3
        · simp only; rw [i4]; omega
      · have hrb : runBegins g (i + 1) = true := by simp [runBegins, hc]
        rw [hrb] at hk hcs
        simp only [if_true] at hk hcs
        have hm := cnt_mono (q := ob (runBegins g)) (show i + 1 + 1 ≤ n by omega)
        rw [if_pos (by omega), i3, i4, wr_nat_ok (by omega), bind_ok, bind_ok]
        refine ⟨_, rfl, by simpa using i1, ?_, ?_, ?_⟩
        · simp only
          rw [hk, hcs, show 1 + (cnt (ob (runBegins g)) (i + 1) + 1) = (1 + cnt (ob (runBegins g)) (i + 1)) + 1 by omega,
            List.take_add_one, List.take_set_of_le (Nat.le_refl _), i2, List.getElem?_set_self (by omega)]
          simp
        · simp only; rw [hcs]; omega
        · simp only; omega)
  rw [h1, bind_ok]
  obtain ⟨s1, s2, s3, s4⟩ := h2
  have hn1 : ((n : Int) - 1).toNat + 1 = n := by omega
  rw [hn1, hC] at s2
  rw [show ((C + 2 : Nat) : Int) - 1 = ((1 + C : Nat) : Int) by omega, wr_nat_ok (by omega)]
  congr 1
  have hlen : (s.1.set (1 + C) (n : Int)).length = (1 + C) + 1 := by simp; omega
  rw [← List.take_of_length_le (Nat.le_of_eq hlen), List.take_add_one, List.take_set_of_le (Nat.le_refl _), s2,
    List.getElem?_set_self (by omega)]
  simp [runOffsets]

theorem runOffsets_length (g : Nat → Nat) (n : Nat) :
    (runOffsets g n).length = cnt (ob (runBegins g)) n + 2 := by
  simp [runOffsets, kept_length]

theorem runOffsets_pairwise (g : Nat → Nat) (n : Nat) : (runOffsets g n).Pairwise (· ≤ ·) := by
  unfold runOffsets
  rw [List.cons_append, List.pairwise_cons, List.pairwise_append]
  refine ⟨fun a _ => Nat.zero_le a, ?_, List.pairwise_singleton _ _, ?_⟩
  · unfold keptPos
    exact (List.pairwise_lt_range.imp (fun h => Nat.le_of_lt h)).filter _
  · intro a ha b hb
    rw [List.mem_singleton] at hb
    subst hb
    have := List.mem_range.mp (List.mem_filter.mp ha).1
    omega

theorem runOffsets_at (g : Nat → Nat) {n i : Nat} (h : i = n ∨ (i < n ∧ runBegins g i = true)) :
    (runOffsets g n)[1 + cnt (ob (runBegins g)) i]? = some i := by
  unfold runOffsets
  rw [Nat.add_comm, List.cons_append, List.getElem?_cons_succ]
  rcases h with rfl | ⟨h1, h2⟩
  · rw [List.getElem?_append_right (by rw [kept_length]), kept_length]; simp
  · obtain ⟨a1, a2⟩ := keptAt_cnt (q := ob (runBegins g)) h1 (by rw [ob_isSome]; exact h2)
    rw [List.getElem?_append_left (by rw [kept_length]; exact a1)]
    unfold keptAt at a2
    rw [List.getElem?_eq_getElem (by rw [kept_length]; exact a1)] at a2 ⊢
    simpa using a2

/-- Each group that is not empty is one of the ranges. -/
theorem runOffsets_group {m : Nat → Nat} {out p : Nat} (hp : p < out) (hm : 0 < m p) :
    ∃ i, (runOffsets (blk m out) (sumTo m out))[i]? = some (sumTo m p) ∧
      (runOffsets (blk m out) (sumTo m out))[i + 1]? = some (sumTo m p + m p) := by
  set g := blk m out with hg
  have hle := sumTo_mono (f := m) (show p + 1 ≤ out by omega)
  rw [sumTo_succ] at hle
  have hgp : ∀ j, sumTo m p ≤ j → j < sumTo m p + m p → g j = p := fun j h1 h2 =>
    blk_eq hp h1 (by rw [sumTo_succ]; exact h2)
  have hend : sumTo m p + m p = sumTo m out ∨
      (sumTo m p + m p < sumTo m out ∧ runBegins g (sumTo m p + m p) = true) := by
    by_cases he : sumTo m p + m p = sumTo m out
    · exact .inl he
    · refine .inr ⟨by omega, ?_⟩
      have h1 := hgp (sumTo m p + m p - 1) (by omega) (by omega)
      have h2 : g (sumTo m p + m p) ≠ p := by
        intro hc
        have := (blk_spec (m := m) (out := out) (i := sumTo m p + m p) (by omega)).2.2
        rw [← hg, hc, sumTo_succ] at this; omega
      simp only [runBegins, decide_eq_true_eq]
      exact ⟨by omega, by rw [h1]; exact fun h => h2 h.symm⟩
  have htail : cnt (ob (runBegins g)) (sumTo m p + m p) = cnt (ob (runBegins g)) (sumTo m p + 1) := by
    apply cnt_ob_tail (by omega)
    intro j h1 h2
    simp only [runBegins, decide_eq_false_iff_not]
    rintro ⟨_, h3⟩
    exact h3 (by rw [hgp j (by omega) h2, hgp (j - 1) (by omega) (by omega)])
  have hE := runOffsets_at g hend
  rw [htail, cnt_ob_succ] at hE
  by_cases hs : sumTo m p = 0
  · refine ⟨0, by simp [runOffsets, hs], ?_⟩
    rw [hs] at hE ⊢
    simpa [cnt, runBegins] using hE
  · have hrb : runBegins g (sumTo m p) = true := by
      have h1 := hgp (sumTo m p) (Nat.le_refl _) (by omega)
      have h2 : g (sumTo m p - 1) ≠ p := by
        intro hc
        have := (blk_spec (m := m) (out := out) (i := sumTo m p - 1) (by omega)).2.1
        rw [← hg, hc] at this; omega
      simp only [runBegins, decide_eq_true_eq]
      exact ⟨by omega, by rw [h1]; exact h2⟩
    refine ⟨_, runOffsets_at g (.inr ⟨by omega, hrb⟩), ?_⟩
    rw [hrb] at hE
    rw [← hE]
    congr 1

/-! ### One range after the other -/

theorem onRange_ok {f : List α → R (List α)} {lo hi : Nat} {xs ys : List α} (h1 : lo ≤ hi) (h2 : hi ≤ xs.length)
    (hf : f (part xs lo (hi - lo)) = ok ys) (hy : ys.length = hi - lo) :
    ∃ zs, onRange f (lo : Int) (hi : Int) xs = ok zs ∧ zs.length = xs.length ∧
      part zs lo (hi - lo) = ys ∧ ∀ i, i < lo ∨ hi ≤ i → zs[i]? = xs[i]? := by
  refine ⟨xs.take lo ++ ys ++ xs.drop hi, ?_, by simp; omega, ?_, ?_⟩
  · unfold onRange
    rw [if_pos (by omega)]
    simp only [Int.toNat_natCast]
    rw [show ((hi : Int) - (lo : Int)).toNat = hi - lo by omega]
    unfold part at hf
    rw [hf, bind_ok]
  · unfold part
    rw [List.append_assoc, List.drop_append, List.drop_eq_nil_of_le (by simp)]
    simp only [List.length_take, List.nil_append]
    rw [show lo - min lo xs.length = 0 by omega, List.drop_zero, List.take_append, hy, Nat.sub_self, List.take_zero,
      List.append_nil, List.take_of_length_le (by omega)]
  · intro i hi'
    by_cases h : i < lo
    · rw [List.append_assoc, List.getElem?_append_left (by simp; omega), List.getElem?_take, if_pos h]
    · rw [List.getElem?_append_right (by simp; omega)]
      simp only [List.length_append, List.length_take, hy, List.getElem?_drop]
      congr 1; omega

theorem ranges_ok {offs : List Nat} (hmono : offs.Pairwise (· ≤ ·)) {xs : List α} (hlast : ∀ o ∈ offs, o ≤ xs.length)
    (hone : 0 < offs.length) {body : Nat → List α → R (List α)} {F : Nat → List α → R (List α)}
    (hbody : ∀ (i lo hi : Nat) t, offs[i]? = some lo → offs[i + 1]? = some hi →
      t.length = xs.length → lo ≤ hi → hi ≤ xs.length → body i t = onRange (F lo) lo hi t)
    {Q : Nat → List α → List α → Prop}
    (hF : ∀ (i lo hi : Nat), offs[i]? = some lo → offs[i + 1]? = some hi → ∃ ys, F lo (part xs lo (hi - lo)) = ok ys ∧
      ys.length = hi - lo ∧ Q lo (part xs lo (hi - lo)) ys) :
    ∃ zs, forN (offs.length - 1) body xs = ok zs ∧ zs.length = xs.length ∧
      ∀ (i lo hi : Nat), offs[i]? = some lo → offs[i + 1]? = some hi →
        Q lo (part xs lo (hi - lo)) (part zs lo (hi - lo)) := by
  have hle : ∀ {i j lo hi : Nat}, i ≤ j → offs[i]? = some lo → offs[j]? = some hi → lo ≤ hi := by
    intro i j lo hi hij h1 h2
    obtain ⟨a1, a2⟩ := List.getElem?_eq_some_iff.mp h1
    obtain ⟨b1, b2⟩ := List.getElem?_eq_some_iff.mp h2
    by_cases he : i = j
    · subst he; omega
    · have := List.pairwise_iff_getElem.mp hmono i j a1 b1 (by omega)
      omega
  obtain ⟨zs, h1, h2⟩ := forN_inv (n := offs.length - 1) (body := body) (s := xs)
    (fun k t => t.length = xs.length ∧ (∀ o, offs[k]? = some o → ∀ i, o ≤ i → t[i]? = xs[i]?) ∧
      ∀ i lo hi, i < k → offs[i]? = some lo → offs[i + 1]? = some hi →
        Q lo (part xs lo (hi - lo)) (part t lo (hi - lo)))
    ⟨rfl, fun _ _ _ _ => rfl, fun i _ _ hi => by omega⟩
    (by
      intro k hk t ⟨t1, t2, t3⟩
      have e1 : offs[k]? = some offs[k] := List.getElem?_eq_getElem (by omega)
      have e2 : offs[k + 1]? = some offs[k + 1] := List.getElem?_eq_getElem (by omega)
      have hlh := hle (Nat.le_succ k) e1 e2
      have hhx := hlast _ (List.getElem_mem (show k + 1 < offs.length by omega))
      obtain ⟨ys, y1, y2, y3⟩ := hF k _ _ e1 e2
      have hpart : part t offs[k] (offs[k + 1] - offs[k]) = part xs offs[k] (offs[k + 1] - offs[k]) :=
        part_ext (fun i h1 _ => t2 _ e1 i h1)
      obtain ⟨zs, z1, z2, z3, z4⟩ := onRange_ok (f := F offs[k]) (xs := t) hlh (by omega) (by rw [hpart]; exact y1) y2
      refine ⟨zs, by rw [hbody k _ _ t e1 e2 t1 hlh hhx]; exact z1, by omega, ?_, ?_⟩
      · intro o ho i hi
        rw [e2] at ho
        injection ho with ho
        rw [z4 i (by omega), t2 _ e1 i (by omega)]
      · intro i lo hi hik a1 a2
        by_cases h : i = k
        · subst h
          rw [e1] at a1; rw [e2] at a2
          injection a1 with a1; injection a2 with a2
          subst a1; subst a2
          rw [z3]; exact y3
        · have := hle (show i + 1 ≤ k by omega) a2 e1
          rw [part_ext (ys := t) (fun j _ h3 => z4 j (by
            have := hle (Nat.le_succ i) a1 a2
            omega))]
          exact t3 i lo hi (by omega) a1 a2)
  refine ⟨zs, h1, h2.1, fun i lo hi a1 a2 => h2.2.2 i lo hi ?_ a1 a2⟩
  have := (List.getElem?_eq_some_iff.mp a2).1
  omega

/-- Each range is part of a group. -/
theorem runOffsets_range {m : Nat → Nat} {out i lo hi : Nat}
    (h1 : (runOffsets (blk m out) (sumTo m out))[i]? = some lo)
    (h2 : (runOffsets (blk m out) (sumTo m out))[i + 1]? = some hi) (hlt : lo < hi) :
    ∃ p, p < out ∧ hi - lo ≤ m p := by
  set g := blk m out with hg
  have hmono := runOffsets_pairwise g (sumTo m out)
  obtain ⟨a1, a2⟩ := List.getElem?_eq_some_iff.mp h1
  obtain ⟨b1, b2⟩ := List.getElem?_eq_some_iff.mp h2
  have hle : ∀ o ∈ runOffsets g (sumTo m out), o ≤ sumTo m out := by
    intro o ho
    unfold runOffsets at ho
    rcases List.mem_append.mp ho with ho | ho
    · rcases List.mem_cons.mp ho with rfl | ho
      · exact Nat.zero_le _
      · have := List.mem_range.mp (List.mem_filter.mp ho).1; omega
    · rw [List.mem_singleton] at ho; omega
  have hhi := hle hi (List.mem_of_getElem? h2)
  have hno : ∀ x, lo < x → x < hi → runBegins g x = false := by
    intro x x1 x2
    by_contra hc
    have hx := runOffsets_at g (n := sumTo m out) (.inr ⟨by omega, by simpa using hc⟩ : x = sumTo m out ∨ _)
    obtain ⟨c1, c2⟩ := List.getElem?_eq_some_iff.mp hx
    generalize 1 + cnt (ob (runBegins g)) x = j at c1 c2
    by_cases hj : j ≤ i
    · by_cases hji : j = i
      · subst hji; omega
      · have := List.pairwise_iff_getElem.mp hmono j i c1 a1 (by omega); omega
    · by_cases hji : j = i + 1
      · subst hji; omega
      · have := List.pairwise_iff_getElem.mp hmono (i + 1) j b1 c1 (by omega); omega
  have hconst : ∀ k, lo + k < hi → g (lo + k) = g lo := by
    intro k
    induction k with
    | zero => intro _; rfl
    | succ k ih =>
      intro hk
      have := hno (lo + (k + 1)) (by omega) hk
      simp only [runBegins, decide_eq_false_iff_not, not_and, not_not] at this
      rw [← this (by omega), show lo + (k + 1) - 1 = lo + k by omega]
      exact ih (by omega)
  obtain ⟨p1, p2, p3⟩ := blk_spec (m := m) (out := out) (i := lo) (by omega)
  obtain ⟨q1, q2, q3⟩ := blk_spec (m := m) (out := out) (i := hi - 1) (by omega)
  have he := hconst (hi - 1 - lo) (by omega)
  rw [show lo + (hi - 1 - lo) = hi - 1 by omega] at he
  rw [← hg] at p1 p2 p3 q3
  rw [he] at q3
  rw [sumTo_succ] at q3
  exact ⟨g lo, p1, by omega⟩

theorem runOffsets_le {g : Nat → Nat} {n : Nat} : ∀ o ∈ runOffsets g n, o ≤ n := by
  intro o ho
  unfold runOffsets at ho
  rcases List.mem_append.mp ho with ho | ho
  · rcases List.mem_cons.mp ho with rfl | ho
    · exact Nat.zero_le _
    · have := List.mem_range.mp (List.mem_filter.mp ho).1; omega
  · rw [List.mem_singleton] at ho; omega

theorem part_zero (xs : List α) (s : Nat) : part xs s 0 = [] := by simp [part]

theorem part_map (f : α → β) (xs : List α) (s n : Nat) : part (xs.map f) s n = (part xs s n).map f := by
  simp [part, List.map_drop, List.map_take]

theorem rd_runOffsets {g : Nat → Nat} {n i o : Nat} (h : (runOffsets g n)[i]? = some o) :
    rd ((runOffsets g n).map (fun (i : Nat) => (i : Int))) (i : Int) = ok (o : Int) := by
  apply rd_eq_ok.mpr
  refine ⟨by omega, ?_⟩
  rw [Int.toNat_natCast, List.getElem?_map, h]; rfl

theorem iota_pairwise (n : Nat) : (iota n).Pairwise (· < ·) := by
  unfold iota
  rw [List.pairwise_map]
  exact List.pairwise_lt_range.imp (fun h => by omega)

theorem part_sublist (xs : List α) (s n : Nat) : (part xs s n).Sublist xs :=
  (List.take_sublist _ _).trans (List.drop_sublist _ _)

theorem mem_part_iota {n s k : Nat} {i : Int} (h : i ∈ part (iota n) s k) : 0 ≤ i ∧ i < (n : Int) := by
  have := (part_sublist _ _ _).mem h
  unfold iota at this
  obtain ⟨j, j1, rfl⟩ := List.mem_map.mp this
  have := List.mem_range.mp j1
  omega

/-- The numbers at the given positions. -/
def itemAt (data : List Atom) (i : Int) : Atom := data[i.toNat]?.getD (.int 0)

theorem itemAt_rd {data : List Atom} {i : Int} (h1 : 0 ≤ i) (h2 : i < data.length) :
    rd data i = ok (itemAt data i) := by
  rw [rd_ok h1 (by omega)]
  unfold itemAt
  rw [List.getElem?_eq_getElem (by omega)]; rfl

theorem part_itemAt {data : List Atom} {s k : Nat} (h : s + k ≤ data.length) :
    (part (iota data.length) s k).map (itemAt data) = part data s k := by
  rw [part_iota h, List.map_map]
  apply List.ext_getElem?
  intro i
  by_cases hi : i < k
  · rw [part_getElem? hi, List.getElem?_map, List.getElem?_range hi, List.getElem?_eq_getElem (by omega)]
    simp only [Option.map_some, Function.comp_apply, itemAt, Int.toNat_natCast]
    rw [List.getElem?_eq_getElem (by omega)]; rfl
  · rw [List.getElem?_eq_none (by simp; omega), List.getElem?_eq_none (by rw [part_length h]; omega)]

theorem itemLt_inOrder {asc : Bool} {data : List Atom} {i j : Int} (hi : i.toNat < data.length) (hj : j.toNat < data.length) :
    itemLt asc data i j = !Spec.inOrder asc (itemAt data j) (itemAt data i) := by
  unfold itemLt Spec.inOrder itemAt
  rw [List.getElem?_eq_getElem hi, List.getElem?_eq_getElem hj]
  simp only [Option.getD_some, lt_eq]
  cases asc <;> simp

section
variable {m : Nat → Nat} {out : Nat} {dt : DType} {data : List Atom} {asc : Bool}

/-- The order of positions that a stable sort gives. -/
def argOrder (asc stable : Bool) (x : Int → Atom) (i j : Int) : Prop :=
  Spec.inOrder asc (x i) (x j) = true ∧ (stable = true → Spec.inOrder asc (x j) (x i) = true → i < j)

theorem stable_index (hd : ∀ x ∈ data, Spec.OfType dt x) {s k : Nat} (h : s + k ≤ data.length) :
    ∃ ys, stableSort (itemLt asc data) (part (iota data.length) s k) = ok ys ∧ ys.length = k ∧
      ys.Perm (part (iota data.length) s k) ∧ ys.Pairwise (argOrder asc true (itemAt data)) := by
  obtain ⟨ys, y1, y2, y3⟩ := stableSort_ok (itemLt_strictWeak asc hd (xs := part (iota data.length) s k)
    (fun i hi => mem_part_iota hi)) ((iota_pairwise _).sublist (part_sublist _ _ _))
  refine ⟨ys, y1, by rw [y2.length_eq, part_length (by simpa [iota] using h)], y2, ?_⟩
  refine List.Pairwise.imp_of_mem ?_ y3
  intro i j hi hj hij
  have hi := mem_part_iota (y2.mem_iff.mp hi)
  have hj := mem_part_iota (y2.mem_iff.mp hj)
  obtain ⟨h1, h2⟩ := hij
  rw [itemLt_inOrder (by omega) (by omega)] at h1 h2
  refine ⟨by simpa using h1, fun _ h => h2 (by simpa using h)⟩

theorem ranges_groups {xs : List α} {body : Int → List α → R (List α)} {F : Nat → List α → R (List α)}
    {Q : Nat → List α → List α → Prop} (hl : xs.length = sumTo m out)
    (hbody : ∀ (i lo hi : Nat) t, (runOffsets (blk m out) (sumTo m out))[i]? = some lo →
      (runOffsets (blk m out) (sumTo m out))[i + 1]? = some hi →
      t.length = xs.length → lo ≤ hi → hi ≤ xs.length → body (i : Int) t = onRange (F lo) lo hi t)
    (hF : ∀ (lo k : Nat), lo + k ≤ sumTo m out → (k = 0 ∨ ∃ p, p < out ∧ k ≤ m p) → ∃ ys, F lo (part xs lo k) = ok ys ∧
      ys.length = k ∧ Q lo (part xs lo k) ys) :
    ∃ zs, forI (((cnt (ob (runBegins (blk m out))) (sumTo m out) + 2 : Nat) : Int) - 1) body xs = ok zs ∧
      zs.length = xs.length ∧
      ∀ p, p < out → 0 < m p → Q (sumTo m p) (part xs (sumTo m p) (m p)) (part zs (sumTo m p) (m p)) := by
  obtain ⟨zs, z1, z2, z3⟩ := ranges_ok (runOffsets_pairwise (blk m out) (sumTo m out)) (xs := xs)
    (by rw [hl]; exact runOffsets_le) (by rw [runOffsets_length]; omega) hbody (Q := Q) (by
      intro i lo hi h1 h2
      have h3 := runOffsets_le _ (List.mem_of_getElem? h2)
      have h4 : lo ≤ hi := by
        obtain ⟨a1, a2⟩ := List.getElem?_eq_some_iff.mp h1
        obtain ⟨b1, b2⟩ := List.getElem?_eq_some_iff.mp h2
        have := List.pairwise_iff_getElem.mp (runOffsets_pairwise (blk m out) (sumTo m out)) i (i + 1) a1 b1 (by omega)
        omega
      refine hF lo (hi - lo) (by omega) ?_
      by_cases h5 : lo = hi
      · exact .inl (by omega)
      · exact .inr (runOffsets_range h1 h2 (by omega)))
  refine ⟨zs, ?_, z2, ?_⟩
  · unfold forI
    rw [show (((cnt (ob (runBegins (blk m out))) (sumTo m out) + 2 : Nat) : Int) - 1).toNat
      = (runOffsets (blk m out) (sumTo m out)).length - 1 by rw [runOffsets_length]; omega]
    exact z1
  · intro p hp hm
    obtain ⟨i, i1, i2⟩ := runOffsets_group hp hm
    have := z3 i _ _ i1 i2
    rwa [Nat.add_sub_cancel_left] at this

theorem in_group {zs : List α} (hl : zs.length = sumTo m out) {i : Nat} (hi : i < zs.length) :
    ∃ p, p < out ∧ 0 < m p ∧ zs[i] ∈ part zs (sumTo m p) (m p) := by
  obtain ⟨h1, h2, h3⟩ := blk_spec (m := m) (out := out) (i := i) (by omega)
  rw [sumTo_succ] at h3
  refine ⟨_, h1, by omega, ?_⟩
  apply List.mem_of_getElem? (i := i - sumTo m (blk m out i))
  rw [part_getElem? (by omega), show sumTo m (blk m out i) + (i - sumTo m (blk m out i)) = i by omega]
  exact List.getElem?_eq_getElem hi

theorem awkward_sort_ok (hd : ∀ x ∈ data, Spec.OfType dt x) (hl : data.length = sumTo m out) {toptr : List Atom}
    (ht : toptr.length = data.length) :
    ∃ ys, awkward_sort toptr data data.length ((runOffsets (blk m out) (sumTo m out)).map (fun (i : Nat) => (i : Int)))
        ((cnt (ob (runBegins (blk m out))) (sumTo m out) + 2 : Nat) : Int) data.length asc = ok ys ∧
      ys.length = data.length ∧ ∀ p, p < out → 0 < m p →
        (part ys (sumTo m p) (m p)).Perm (part data (sumTo m p) (m p)) ∧
        (part ys (sumTo m p) (m p)).Pairwise (fun x y => Spec.inOrder asc x y = true) := by
  unfold awkward_sort
  rw [if_neg (by omega)]
  have hil : (iota data.length).length = data.length := by simp [iota]
  obtain ⟨zs, z1, z2, z3⟩ := ranges_groups (m := m) (out := out) (xs := iota data.length)
    (body := fun i index =>
      rd ((runOffsets (blk m out) (sumTo m out)).map (fun (i : Nat) => (i : Int))) i >>= fun start =>
      rd ((runOffsets (blk m out) (sumTo m out)).map (fun (i : Nat) => (i : Int))) (i + 1) >>= fun stop =>
      onRange (stableSort (itemLt asc data)) start stop index)
    (F := fun _ => stableSort (itemLt asc data))
    (Q := fun _ xs ys => ys.Perm xs ∧ ys.Pairwise (argOrder asc true (itemAt data)))
    (by rw [hil, hl])
    (by
      intro i lo hi t h1 h2 _ _ _
      rw [rd_runOffsets h1, bind_ok, show (i : Int) + 1 = ((i + 1 : Nat) : Int) by omega, rd_runOffsets h2, bind_ok])
    (by
      intro lo k h1 _
      exact stable_index hd (by omega))
  rw [z1, bind_ok]
  have hzl : zs.length = data.length := by rw [z2, hil]
  have hrange : ∀ z ∈ zs, 0 ≤ z ∧ z < (data.length : Int) := by
    intro z hz
    obtain ⟨i, hi, rfl⟩ := List.mem_iff_getElem.mp hz
    obtain ⟨p, p1, p2, p3⟩ := in_group (m := m) (out := out) (by omega) hi
    exact mem_part_iota ((z3 p p1 p2).1.mem_iff.mp p3)
  have hbound : ∀ p, p < out → sumTo m p + m p ≤ data.length := by
    intro p hp
    have := sumTo_mono (f := m) (show p + 1 ≤ out by omega)
    rw [sumTo_succ] at this; omega
  have hfill : forN data.length (fun i toptr =>
      rd zs (i : Int) >>= fun j => rd data j >>= fun x => wr toptr (i : Int) x) toptr = ok (zs.map (itemAt data)) := by
    rw [← hzl] at ht ⊢
    have : zs.map (itemAt data) = (List.range zs.length).map (fun i => itemAt data (zs[i]?.getD 0)) := by
      apply List.ext_getElem (by simp)
      intro i h1 h2
      simp at h1
      simp [h1]
    rw [this]
    simp only [← R.bind_assoc]
    apply forN_fill_eq _ ht
    intro i hi
    have := hrange _ (List.getElem_mem hi)
    rw [rd_nat_ok hi, bind_ok, itemAt_rd this.1 this.2]
    simp [hi]
  refine ⟨_, hfill, by simp [hzl], ?_⟩
  intro p hp hm
  obtain ⟨q1, q2⟩ := z3 p hp hm
  rw [part_map]
  constructor
  · rw [← part_itemAt (hbound p hp)]
    exact q1.map _
  · rw [List.pairwise_map]
    exact q2.imp (fun h => h.1)

theorem awkward_argsort_ok (hd : ∀ x ∈ data, Spec.OfType dt x) (hl : data.length = sumTo m out) {toptr : List Int}
    (ht : toptr.length = data.length) :
    ∃ ys, awkward_argsort toptr data data.length ((runOffsets (blk m out) (sumTo m out)).map (fun (i : Nat) => (i : Int)))
        ((cnt (ob (runBegins (blk m out))) (sumTo m out) + 2 : Nat) : Int) asc = ok ys ∧
      ys.length = data.length ∧ ∀ p, p < out → 0 < m p →
        (part ys (sumTo m p) (m p)).Perm (iota (m p)) ∧
        (part ys (sumTo m p) (m p)).Pairwise (argOrder asc true (fun i => itemAt data ((sumTo m p : Nat) + i))) := by
  unfold awkward_argsort
  rw [if_neg (by omega)]
  have hil : (iota data.length).length = data.length := by simp [iota]
  obtain ⟨zs, z1, z2, z3⟩ := ranges_groups (m := m) (out := out) (xs := iota data.length)
    (body := fun i index =>
      rd ((runOffsets (blk m out) (sumTo m out)).map (fun (i : Nat) => (i : Int))) i >>= fun start =>
      rd ((runOffsets (blk m out) (sumTo m out)).map (fun (i : Nat) => (i : Int))) (i + 1) >>= fun stop =>
      onRange (fun xs => stableSort (itemLt asc data) xs >>= fun ys =>
        ok (ys.map (fun j => j - start))) start stop index)
    (F := fun lo xs => stableSort (itemLt asc data) xs >>= fun ys => ok (ys.map (fun j => j - (lo : Int))))
    (Q := fun lo xs ys => ∃ ys0 : List Int, ys = ys0.map (fun j => j - (lo : Int)) ∧ ys0.Perm xs ∧
      ys0.Pairwise (argOrder asc true (itemAt data)))
    (by rw [hil, hl])
    (by
      intro i lo hi t h1 h2 _ _ _
      rw [rd_runOffsets h1, bind_ok, show (i : Int) + 1 = ((i + 1 : Nat) : Int) by omega, rd_runOffsets h2, bind_ok])
    (by
      intro lo k h1 _
      obtain ⟨ys, y1, y2, y3, y4⟩ := stable_index (asc := asc) hd (s := lo) (k := k) (by omega)
      exact ⟨ys.map (fun j => j - (lo : Int)), by rw [y1, bind_ok], by simpa using y2, ys, rfl, y3, y4⟩)
  rw [z1, bind_ok]
  have hzl : zs.length = data.length := by rw [z2, hil]
  have hbound : ∀ p, p < out → sumTo m p + m p ≤ data.length := by
    intro p hp
    have := sumTo_mono (f := m) (show p + 1 ≤ out by omega)
    rw [sumTo_succ] at this; omega
  have hfill : forN data.length (fun i toptr => rd zs (i : Int) >>= fun j => wr toptr (i : Int) j) toptr = ok zs := by
    rw [← hzl] at ht ⊢
    have : zs = (List.range zs.length).map (fun i => zs[i]?.getD 0) := by
      apply List.ext_getElem (by simp)
      intro i h1 h2
      simp [h1]
    conv => rhs; rw [this]
    apply forN_fill_eq _ ht
    intro i hi
    rw [rd_nat_ok hi]; simp [hi]
  refine ⟨_, hfill, hzl, ?_⟩
  intro p hp hm
  obtain ⟨ys0, q0, q1, q2⟩ := z3 p hp hm
  rw [q0]
  constructor
  · refine (q1.map _).trans (List.Perm.of_eq ?_)
    rw [part_iota (hbound p hp), List.map_map, iota]
    apply List.map_congr_left
    intro i _
    simp
  · rw [List.pairwise_map]
    refine q2.imp (fun {i j} h => ?_)
    unfold argOrder at h ⊢
    simp only [show ∀ x : Int, ((sumTo m p : Nat) : Int) + (x - ((sumTo m p : Nat) : Int)) = x by intro x; omega]
    exact ⟨h.1, fun h1 h2 => by have := h.2 rfl h2; omega⟩

theorem rd_makeStarts {offs : List Nat} {i lo : Nat} (h : offs[i]? = some lo) (h' : i + 1 < offs.length) :
    rd (Content.makeStarts (offs.map (fun (i : Nat) => (i : Int)))) (i : Int) = ok (lo : Int) := by
  apply rd_eq_ok.mpr
  refine ⟨by omega, ?_⟩
  rw [Int.toNat_natCast, Content.makeStarts_getElem? (by simpa using h'), List.getElem?_map, h]; rfl

theorem rd_makeStops {offs : List Nat} {i hi : Nat} (h : offs[i + 1]? = some hi) :
    rd (Content.makeStops (offs.map (fun (i : Nat) => (i : Int)))) (i : Int) = ok (hi : Int) := by
  apply rd_eq_ok.mpr
  refine ⟨by omega, ?_⟩
  unfold Content.makeStops
  simp [h]

theorem awkward_quick_sort_ok (hd : ∀ x ∈ data, Spec.OfType dt x) (hl : data.length = sumTo m out)
    (hs : ∀ p, p < out → m p < 2 ^ 48) :
    ∃ ys, awkward_quick_sort data
        (Content.makeStarts ((runOffsets (blk m out) (sumTo m out)).map (fun (i : Nat) => (i : Int))))
        (Content.makeStops ((runOffsets (blk m out) (sumTo m out)).map (fun (i : Nat) => (i : Int)))) asc
        (Content.makeStarts ((runOffsets (blk m out) (sumTo m out)).map (fun (i : Nat) => (i : Int)))).length kMaxLevels = ok ys ∧
      ys.length = data.length ∧ ∀ p, p < out → 0 < m p →
        (part ys (sumTo m p) (m p)).Perm (part data (sumTo m p) (m p)) ∧
        (part ys (sumTo m p) (m p)).Pairwise (fun x y => Spec.inOrder asc x y = true) := by
  unfold awkward_quick_sort
  obtain ⟨zs, z1, z2, z3⟩ := ranges_groups (m := m) (out := out) (xs := data)
    (body := fun i tmpptr =>
      rd (Content.makeStarts ((runOffsets (blk m out) (sumTo m out)).map (fun (i : Nat) => (i : Int)))) i >>= fun start =>
      rd (Content.makeStops ((runOffsets (blk m out) (sumTo m out)).map (fun (i : Nat) => (i : Int)))) i >>= fun stop =>
      onRange (quick_sort (fun x y => ok (x.ordered asc y)) kMaxLevels (alloc kMaxLevels)
        (alloc kMaxLevels)) start stop tmpptr)
    (F := fun _ => quick_sort (fun x y => ok (x.ordered asc y)) kMaxLevels (alloc kMaxLevels) (alloc kMaxLevels))
    (Q := fun _ xs ys => ys.Perm xs ∧ ys.Pairwise (fun x y => Spec.inOrder asc x y = true))
    hl
    (by
      intro i lo hi t h1 h2 _ _ _
      rw [rd_makeStarts h1 (List.getElem?_eq_some_iff.mp h2).1, bind_ok, rd_makeStops h2, bind_ok])
    (by
      intro lo k h1 h2
      have hlen : (part data lo k).length = k := part_length (by omega)
      obtain ⟨ys, y1, y2, y3⟩ := quick_sort_ok (inOrder_compares asc dt) (maxlevels := kMaxLevels)
        (tmpbeg := alloc kMaxLevels) (tmpend := alloc kMaxLevels) (by simp [alloc]) (by simp [alloc]) (by decide)
        (arr := part data lo k) (fun x hx => hd x ((part_sublist _ _ _).mem hx)) (by
          rw [hlen]
          rcases h2 with rfl | ⟨p, p1, p2⟩
          · decide
          · exact Nat.lt_of_le_of_lt p2 (hs p p1))
      exact ⟨ys, y1, by rw [y2.length_eq, hlen], y2, y3⟩)
  refine ⟨zs, ?_, z2, z3⟩
  rw [← z1]
  unfold forI
  congr 1
  simp only [Content.makeStarts, List.length_take, List.length_map, runOffsets_length]
  omega

theorem fill_iota {lo hi : Nat} {t : List Int} (h1 : lo ≤ hi) (h2 : hi ≤ t.length) :
    forI ((hi : Int) - (lo : Int)) (fun j toptr => wr toptr ((lo : Int) + j) j) t
      = onRange (fun xs => ok (iota xs.length)) lo hi t := by
  have hp : (part t lo (hi - lo)).length = hi - lo := part_length (by omega)
  obtain ⟨zs, z1, z2, z3, z4⟩ := onRange_ok (f := fun xs => ok (iota xs.length)) (xs := t) h1 h2 rfl (by simp [iota, hp])
  rw [z1]
  unfold forI
  rw [show ((hi : Int) - (lo : Int)).toNat = hi - lo by omega]
  obtain ⟨s, s1, s2⟩ := forN_inv (n := hi - lo) (body := fun (j : Nat) toptr => wr toptr ((lo : Int) + (j : Int)) (j : Int))
    (s := t) (fun k s => s.length = t.length ∧ (∀ i, i < lo ∨ lo + k ≤ i → s[i]? = t[i]?) ∧
      ∀ i, i < k → s[lo + i]? = some (i : Int))
    ⟨rfl, fun _ _ => rfl, fun i hi => by omega⟩
    (by
      intro k hk s ⟨a1, a2, a3⟩
      rw [show (lo : Int) + (k : Int) = ((lo + k : Nat) : Int) by omega, wr_nat_ok (by omega)]
      refine ⟨_, rfl, by simpa using a1, ?_, ?_⟩
      · intro i hi
        rw [List.getElem?_set_ne (by omega), a2 i (by omega)]
      · intro i hi
        by_cases he : i = k
        · subst he; rw [List.getElem?_set_self (by omega)]
        · rw [List.getElem?_set_ne (by omega), a3 i (by omega)])
  rw [s1]
  congr 1
  obtain ⟨a1, a2, a3⟩ := s2
  apply List.ext_getElem?
  intro i
  by_cases hi' : i < lo ∨ hi ≤ i
  · rw [a2 i (by omega), z4 i hi']
  · have e1 := a3 (i - lo) (by omega)
    rw [show lo + (i - lo) = i by omega] at e1
    have e2 : (part zs lo (hi - lo))[i - lo]? = zs[i]? := by
      rw [part_getElem? (by omega), show lo + (i - lo) = i by omega]
    rw [e1, ← e2, z3, iota, hp, List.getElem?_map, List.getElem?_range (by omega)]; rfl

theorem awkward_quick_argsort_ok (hd : ∀ x ∈ data, Spec.OfType dt x) (hl : data.length = sumTo m out)
    (hs : ∀ p, p < out → m p < 2 ^ 48) {toptr : List Int} (ht : toptr.length = data.length) :
    ∃ ys, awkward_quick_argsort toptr data ((runOffsets (blk m out) (sumTo m out)).map (fun (i : Nat) => (i : Int)))
        ((cnt (ob (runBegins (blk m out))) (sumTo m out) + 2 : Nat) : Int) asc kMaxLevels = ok ys ∧
      ys.length = data.length ∧ ∀ p, p < out → 0 < m p →
        (part ys (sumTo m p) (m p)).Perm (iota (m p)) ∧
        (part ys (sumTo m p) (m p)).Pairwise (argOrder asc false (fun i => itemAt data ((sumTo m p : Nat) + i))) := by
  unfold awkward_quick_argsort
  obtain ⟨ys, y1, y2, y3⟩ := ranges_ok (runOffsets_pairwise (blk m out) (sumTo m out)) (xs := toptr)
    (by rw [ht, hl]; exact runOffsets_le) (by rw [runOffsets_length]; omega)
    (body := fun (i : Nat) toptr =>
      rd ((runOffsets (blk m out) (sumTo m out)).map (fun (i : Nat) => (i : Int))) (i : Int) >>= fun lo =>
      rd ((runOffsets (blk m out) (sumTo m out)).map (fun (i : Nat) => (i : Int))) ((i : Int) + 1) >>= fun hi =>
      forI (hi - lo) (fun j toptr => wr toptr (lo + j) j) toptr)
    (F := fun _ xs => ok (iota xs.length)) (Q := fun _ xs ys => ys = iota xs.length)
    (by
      intro i lo hi t h1 h2 h3 h4 h5
      rw [rd_runOffsets h1, bind_ok, show (i : Int) + 1 = ((i + 1 : Nat) : Int) by omega, rd_runOffsets h2, bind_ok,
        fill_iota h4 (by omega)])
    (by
      intro i lo hi h1 h2
      have h3 := runOffsets_le _ (List.mem_of_getElem? h2)
      by_cases h4 : lo ≤ hi
      · exact ⟨_, rfl, by simp only [iota, List.length_map, List.length_range]; exact part_length (by omega), rfl⟩
      · exact ⟨_, rfl, by simp [part, iota]; omega, rfl⟩)
  have hfst : forI (((cnt (ob (runBegins (blk m out))) (sumTo m out) + 2 : Nat) : Int) - 1) (fun i toptr =>
      rd ((runOffsets (blk m out) (sumTo m out)).map (fun (i : Nat) => (i : Int))) i >>= fun lo =>
      rd ((runOffsets (blk m out) (sumTo m out)).map (fun (i : Nat) => (i : Int))) (i + 1) >>= fun hi =>
      forI (hi - lo) (fun j toptr => wr toptr (lo + j) j) toptr) toptr = ok ys := by
    rw [← y1]
    unfold forI
    congr 1
    rw [runOffsets_length]; omega
  rw [hfst, bind_ok]
  have hat : ∀ (lo k : Nat) (x : Int), lo + k ≤ data.length → (0 ≤ x ∧ x < (k : Int)) →
      rd data ((lo : Int) + x) = ok (itemAt data (lo + x)) := fun lo k x h1 h2 => itemAt_rd (by omega) (by omega)
  have hpart : ∀ i lo hi, (runOffsets (blk m out) (sumTo m out))[i]? = some lo →
      (runOffsets (blk m out) (sumTo m out))[i + 1]? = some hi → lo ≤ hi → part ys lo (hi - lo) = iota (hi - lo) := by
    intro i lo hi h1 h2 h4
    have h3 := runOffsets_le _ (List.mem_of_getElem? h2)
    rw [y3 i lo hi h1 h2, part_length (by omega)]
  obtain ⟨zs, z1, z2, z3⟩ := ranges_ok (runOffsets_pairwise (blk m out) (sumTo m out)) (xs := ys)
    (by rw [y2, ht, hl]; exact runOffsets_le) (by rw [runOffsets_length]; omega)
    (body := fun (i : Nat) toptr =>
      rd ((runOffsets (blk m out) (sumTo m out)).map (fun (i : Nat) => (i : Int))) (i : Int) >>= fun lo =>
      rd ((runOffsets (blk m out) (sumTo m out)).map (fun (i : Nat) => (i : Int))) ((i : Int) + 1) >>= fun hi =>
      onRange (quick_sort (fun x y =>
        rd data (lo + x) >>= fun a => rd data (lo + y) >>= fun b => ok (a.ordered asc b))
        kMaxLevels (alloc kMaxLevels) (alloc kMaxLevels)) lo hi toptr)
    (F := fun lo => quick_sort (fun x y =>
        rd data (lo + x) >>= fun a => rd data (lo + y) >>= fun b => ok (a.ordered asc b))
        kMaxLevels (alloc kMaxLevels) (alloc kMaxLevels))
    (Q := fun lo xs ys => ys.Perm xs ∧
      ys.Pairwise (fun i j => Spec.inOrder asc (itemAt data (lo + i)) (itemAt data (lo + j)) = true))
    (by
      intro i lo hi t h1 h2 _ _ _
      rw [rd_runOffsets h1, bind_ok, show (i : Int) + 1 = ((i + 1 : Nat) : Int) by omega, rd_runOffsets h2, bind_ok])
    (by
      intro i lo hi h1 h2
      have h3 := runOffsets_le _ (List.mem_of_getElem? h2)
      have h4 : lo ≤ hi := by
        obtain ⟨a1, a2⟩ := List.getElem?_eq_some_iff.mp h1
        obtain ⟨b1, b2⟩ := List.getElem?_eq_some_iff.mp h2
        have := List.pairwise_iff_getElem.mp (runOffsets_pairwise (blk m out) (sumTo m out)) i (i + 1) a1 b1 (by omega)
        omega
      rw [hpart i lo hi h1 h2 h4]
      have hP : ∀ x : Int, 0 ≤ x ∧ x < ((hi - lo : Nat) : Int) → Spec.OfType dt (itemAt data (lo + x)) := by
        intro x hx
        unfold itemAt
        rw [List.getElem?_eq_getElem (by omega)]
        exact hd _ (List.getElem_mem _)
      have hc := inOrder_compares asc dt
      obtain ⟨zs, w1, w2, w3⟩ := quick_sort_ok (P := fun x : Int => 0 ≤ x ∧ x < ((hi - lo : Nat) : Int))
        (cmp := fun x y => rd data (lo + x) >>= fun a => rd data (lo + y) >>= fun b => ok (a.ordered asc b))
        (le := fun x y => Spec.inOrder asc (itemAt data (lo + x)) (itemAt data (lo + y)))
        ⟨by
          intro x y hx hy
          rw [hat lo (hi - lo) x (by omega) hx, bind_ok, hat lo (hi - lo) y (by omega) hy, bind_ok, ordered_eq],
         fun x y hx hy => hc.total _ _ (hP x hx) (hP y hy),
         fun x y z hx hy hz => hc.trans _ _ _ (hP x hx) (hP y hy) (hP z hz)⟩
        (maxlevels := kMaxLevels)
        (tmpbeg := alloc kMaxLevels) (tmpend := alloc kMaxLevels) (by simp [alloc]) (by simp [alloc]) (by decide)
        (arr := iota (hi - lo)) (by
          intro x hx
          unfold iota at hx
          obtain ⟨j, j1, rfl⟩ := List.mem_map.mp hx
          have := List.mem_range.mp j1
          omega) (by
          simp only [iota, List.length_map, List.length_range]
          by_cases h5 : lo = hi
          · rw [h5, Nat.sub_self]; decide
          · obtain ⟨p, p1, p2⟩ := runOffsets_range h1 h2 (by omega)
            exact Nat.lt_of_le_of_lt p2 (hs p p1))
      exact ⟨zs, w1, by rw [w2.length_eq]; simp [iota], w2, w3⟩)
  refine ⟨zs, ?_, by rw [z2, y2, ht], ?_⟩
  · rw [← z1]
    unfold forI
    congr 1
    rw [runOffsets_length]; omega
  · intro p hp hm
    obtain ⟨i, i1, i2⟩ := runOffsets_group hp hm
    obtain ⟨q1, q2⟩ := z3 i _ _ i1 i2
    rw [Nat.add_sub_cancel_left] at q1 q2
    have hq := hpart i _ _ i1 i2 (by omega)
    rw [Nat.add_sub_cancel_left] at hq
    rw [hq] at q1
    exact ⟨q1, q2.imp (fun h => ⟨h, fun hf => by simp at hf⟩)⟩
end

end Awk
