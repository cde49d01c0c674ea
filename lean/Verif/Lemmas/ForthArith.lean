import Verif.Lemmas.ForthData
import Verif.Spec.Forth
/-
Quotient and remainder of the Forth machine.
-/

namespace Awk.Forth
open Awk.R Spec

variable {α : Type}

theorem tdiv_facts (a : Int) {b : Int} (hb : b ≠ 0) :
    a = b * a.tdiv b + a.tmod b ∧ |a.tmod b| < |b| ∧ (0 ≤ a → 0 ≤ a.tmod b) ∧
      (a ≤ 0 → a.tmod b ≤ 0) ∧ |b * a.tdiv b| ≤ |a| ∧
      |a.tmod b| ≤ |a| := by
  have h1 : a = b * a.tdiv b + a.tmod b := (Int.mul_tdiv_add_tmod a b).symm
  have h2 : |a.tmod b| < |b| := by
    have := Int.natAbs_tmod a b
    have hlt : a.natAbs % b.natAbs < b.natAbs := Nat.mod_lt _ (Int.natAbs_pos.mpr hb)
    rw [Int.abs_eq_natAbs, Int.abs_eq_natAbs, this]
    exact_mod_cast hlt
  have h3 : 0 ≤ a → 0 ≤ a.tmod b := fun h => Int.tmod_nonneg b h
  have h4 : a ≤ 0 → a.tmod b ≤ 0 := by
    intro h
    have := Int.tmod_nonneg (a := -a) b (by omega)
    rw [Int.neg_tmod] at this
    omega
  refine ⟨h1, h2, h3, h4, ?_, ?_⟩
  swap
  · have h6 : (a.tmod b).natAbs ≤ a.natAbs := by
      rw [Int.natAbs_tmod]
      exact Nat.mod_le _ _
    rw [Int.abs_eq_natAbs, Int.abs_eq_natAbs]
    exact_mod_cast h6
  have h5 : (b * a.tdiv b).natAbs ≤ a.natAbs := by
    rw [Int.natAbs_mul, Int.natAbs_tdiv]
    exact Nat.mul_div_le _ _
  rw [Int.abs_eq_natAbs, Int.abs_eq_natAbs]
  exact_mod_cast h5

/-- Quotient and remainder are unique. -/
theorem FloorDiv.unique {a b q r q' r' : Int} (hb : b ≠ 0) (h : FloorDiv a b q r)
    (h' : FloorDiv a b q' r') : q = q' ∧ r = r' := by
  obtain ⟨h1, h2, h3⟩ := h
  obtain ⟨g1, g2, g3⟩ := h'
  have e : b * (q - q') = r' - r := by rw [mul_sub]; omega
  have hlt : |r' - r| < |b| := by
    rcases lt_or_gt_of_ne hb with hb | hb
    · have := h3 hb; have := g3 hb
      rw [abs_of_neg hb, abs_lt]; omega
    · have := h2 hb; have := g2 hb
      rw [abs_of_pos hb, abs_lt]; omega
  have hq : q - q' = 0 := by
    rw [← e, abs_mul] at hlt
    by_contra hne
    have : 1 ≤ |q - q'| := Int.one_le_abs hne
    have hb' : 0 < |b| := abs_pos.mpr hb
    nlinarith
  rw [hq] at e
  constructor <;> omega

theorem quotient_floor (m : Machine α) (hbits : 2 ≤ m.bits) {a b : Int}
    (ha : -2 ^ (m.bits - 1) ≤ a ∧ a < 2 ^ (m.bits - 1)) (h0 : b ≠ 0)
    (hmin : ¬ (a = -2 ^ (m.bits - 1) ∧ b = -1)) :
    ∃ q r, quotient m a b = ok q ∧ FloorDiv a b q r := by
  obtain ⟨f1, f2, f3, f4, f5, f6⟩ := tdiv_facts a h0
  unfold quotient
  rw [if_neg hmin]
  have hP : (2 : Int) ≤ 2 ^ (m.bits - 1) := by
    calc (2 : Int) = 2 ^ 1 := by norm_num
      _ ≤ 2 ^ (m.bits - 1) := pow_le_pow_right₀ (by norm_num) (by omega)
  generalize hp : (2 : Int) ^ (m.bits - 1) = P at *
  generalize a.tdiv b = t at *
  generalize a.tmod b = r at *
  have hmul : b * t = a - r := by omega
  have hsmall : ∀ x : Int, -P ≤ x → x < P → wrap m.bits x = x := by
    intro x h1 h2
    exact wrap_small (by omega) (by rw [hp]; exact h1) (by rw [hp]; exact h2)
  have hw : wrap m.bits (t * b) = a - r := by
    rw [mul_comm, hmul]
    apply hsmall
    · rcases le_total 0 a with h | h
      · have := f3 h
        rw [hmul, abs_le, abs_of_nonneg h] at f5
        omega
      · have := f4 h; omega
    · rcases le_total 0 a with h | h
      · have := f3 h; omega
      · rw [abs_le, abs_of_nonpos h] at f6
        omega
  simp only [hw]
  by_cases hr : r = 0
  · refine ⟨t, 0, by rw [if_pos (by omega)], by omega, fun h => ?_, fun h => ?_⟩ <;> omega
  · rw [if_neg (by omega)]
    -- the divisor is at least 2 in magnitude
    have hb2 : 2 ≤ |b| := by
      by_contra h
      have h1 : |b| = 1 := by
        have := abs_pos.mpr h0; omega
      rw [h1, abs_lt] at f2
      omega
    have ht : 2 * |t| ≤ |a| := by
      rw [abs_mul] at f5
      have := abs_nonneg t
      nlinarith
    have hta : |t| < P := by
      have := abs_nonneg t
      have : |a| ≤ P := by rw [abs_le]; omega
      omega
    rw [abs_lt] at hta
    have hsub : ∀ x : Int, (x = 0 ∨ x = 1) → wrap m.bits (t - x) = t - x := by
      intro x hx
      have h2 : 2 * |t| ≤ P := le_trans ht (by rw [abs_le]; omega)
      have h3 := neg_abs_le t
      apply hsmall <;> omega
    by_cases hs : (a < 0) ≠ (b < 0)
    · rw [if_pos hs, hsub 1 (by omega)]
      refine ⟨t - 1, r + b, rfl, by rw [mul_sub]; omega, fun h => ?_, fun h => ?_⟩
      · have ha0 : a < 0 := by
          by_contra hna
          exact hs (by simp [hna]; omega)
        have := f4 (by omega)
        rw [abs_of_pos h, abs_lt] at f2
        omega
      · have ha0 : ¬ a < 0 := by
          intro hna
          exact hs (by simp [hna]; omega)
        have := f3 (by omega)
        rw [abs_of_neg h, abs_lt] at f2
        omega
    · rw [if_neg hs, hsub 0 (by omega)]
      have hs' : (a < 0) = (b < 0) := by simpa using hs
      refine ⟨t - 0, r, rfl, by rw [mul_sub]; omega, fun h => ?_, fun h => ?_⟩
      · have ha0 : ¬ a < 0 := by rw [hs']; omega
        have := f3 (by omega)
        rw [abs_of_pos h, abs_lt] at f2
        omega
      · have ha0 : a < 0 := by rw [hs']; exact h
        have := f4 (by omega)
        rw [abs_of_neg h, abs_lt] at f2
        omega

/-- The remainder is right if `b + a % b` does not overflow. -/
theorem remainder_floor (m : Machine α) (hbits : 2 ≤ m.bits) {a b : Int} (h0 : b ≠ 0)
    (hmin : ¬ (a = -2 ^ (m.bits - 1) ∧ b = -1))
    (hfit : -2 ^ (m.bits - 1) ≤ b + a.tmod b ∧ b + a.tmod b < 2 ^ (m.bits - 1)) :
    ∃ q r, remainder m a b = ok r ∧ FloorDiv a b q r := by
  obtain ⟨f1, f2, _⟩ := tdiv_facts a h0
  unfold remainder
  rw [if_neg hmin, wrap_small (by omega) hfit.1 hfit.2]
  obtain ⟨g1, g2, g3, g4, _⟩ := tdiv_facts (b + a.tmod b) h0
  refine ⟨a.tdiv b - 1 + (b + a.tmod b).tdiv b, _, rfl, ?_, fun h => ?_, fun h => ?_⟩
  · rw [mul_add, mul_sub]
    linarith
  · rw [abs_of_pos h, abs_lt] at f2 g2
    have := g3 (by omega)
    omega
  · rw [abs_of_neg h, abs_lt] at f2 g2
    have := g4 (by omega)
    omega

/-- It does not if the signs differ or the divisor is at most a quarter of the range. -/
theorem remainder_fits {P a b : Int} (h0 : b ≠ 0) (hb : -P ≤ b ∧ b < P)
    (h : (a ≤ 0 ∧ 0 < b) ∨ (0 ≤ a ∧ b < 0) ∨ (2 * |b| ≤ P)) :
    -P ≤ b + a.tmod b ∧ b + a.tmod b < P := by
  obtain ⟨_, f2, f3, f4, _⟩ := tdiv_facts a h0
  rcases h with ⟨h1, h2⟩ | ⟨h1, h2⟩ | h
  · have := f4 h1
    rw [abs_of_pos h2, abs_lt] at f2
    omega
  · have := f3 h1
    rw [abs_of_neg h2, abs_lt] at f2
    omega
  · have h1 := neg_abs_le b
    have h2 := le_abs_self b
    rw [abs_lt] at f2
    omega

/-! ### Numbers from bytes -/

theorem zipIdx_sum (bs : List Nat) (k : Nat) :
    ((bs.zipIdx k).map fun (b, i) => b * 256 ^ i).sum = 256 ^ k * unsigned bs := by
  induction bs generalizing k with
  | nil => simp [unsigned]
  | cons b bs ih =>
    simp only [List.zipIdx_cons, List.map_cons, List.sum_cons, ih, unsigned]
    ring

theorem unsigned_lt {bs : List Nat} (h : ∀ x ∈ bs, x < 256) : unsigned bs < 256 ^ bs.length := by
  induction bs with
  | nil => simp [unsigned]
  | cons b bs ih =>
    have h1 := h b (by simp)
    have h2 := ih (fun x hx => h x (by simp [hx]))
    simp only [unsigned, List.length_cons, pow_succ]
    omega

theorem number_unsigned (bs : List Nat) : number false bs = unsigned bs := by
  have := zipIdx_sum bs 0
  simp only [pow_zero, one_mul] at this
  simp [number, this]

theorem number_signed {bs : List Nat} (h : ∀ x ∈ bs, x < 256) :
    number true bs = wrap (8 * bs.length) (unsigned bs) := by
  have h1 := zipIdx_sum bs 0
  have h2 := unsigned_lt h
  simp only [pow_zero, one_mul] at h1
  have h3 : (2 : Int) ^ (8 * bs.length) = 256 ^ bs.length := by
    rw [pow_mul]; norm_num
  have h4 : (2 : Nat) ^ (8 * bs.length) = 256 ^ bs.length := by
    rw [pow_mul]; norm_num
  have h5 : ((256 ^ bs.length : Nat) : Int) = 256 ^ bs.length := by push_cast; rfl
  simp only [number, h1, true_and]
  unfold wrap
  rw [Int.bmod_def, h4]
  rw [Int.emod_eq_of_lt (by omega) (by omega)]
  split <;> split <;> omega

theorem readItems (m : Machine α) (f : Nat → Data α → R (Data α × Err)) (v : Nat → Int) (num : Nat) :
    ∀ (i : Nat) (d : Data α), (∀ j d', i ≤ j → j < i + num → f j d' = d'.push m (v j)) →
      d.stack.length + num ≤ m.stackMax →
      repeatN f i num d =
        ok ({ d with stack := ((List.range' i num).map v).reverse ++ d.stack }, .none) := by
  induction num with
  | zero => intro i d _ _; simp [repeatN, Data.fine]
  | succ num ih =>
    intro i d hf hs
    unfold repeatN
    rw [hf i d (by omega) (by omega), Data.push, if_neg (by omega), Data.fine, bind_ok, if_pos rfl,
      ih (i + 1) _ (fun j d' h1 h2 => hf j d' (by omega) (by omega)) (by simp; omega)]
    simp [List.range'_succ]

theorem wrap32_small {x : Int} (h1 : -2147483648 ≤ x) (h2 : x < 2147483648) : wrap 32 x = x :=
  wrap_small (by norm_num) (by norm_num; exact h1) (by norm_num; exact h2)

theorem decode_number (m : Machine α) {k : Kind} {signed : Bool} {bs : List Nat}
    (hk : (signed = true ∧ k = .int ∧ bs.length ≤ 4) ∨ (signed = false ∧ k = .uint ∧ bs.length ≤ 2))
    (h : ∀ x ∈ bs, x < 256) : stackValue m k bs = number signed bs := by
  have hlt := unsigned_lt h
  rcases hk with ⟨rfl, rfl, hl⟩ | ⟨rfl, rfl, hl⟩
  · rw [number_signed h]
    simp only [stackValue, decodeInt]
    split
    · rfl
    · have h4 : 256 ^ bs.length ≤ 256 ^ 4 := Nat.pow_le_pow_right (by norm_num) hl
      have h6 : (2 : Nat) ^ (8 * bs.length) = 256 ^ bs.length := by
        rw [pow_mul]; norm_num
      apply wrap32_small
      · unfold wrap
        have := Int.le_bmod (x := (unsigned bs : Int)) (m := 2 ^ (8 * bs.length)) (by positivity)
        rw [h6] at this ⊢
        omega
      · unfold wrap
        have := Int.bmod_lt (x := (unsigned bs : Int)) (m := 2 ^ (8 * bs.length)) (by positivity)
        rw [h6] at this ⊢
        omega
  · rw [number_unsigned]
    simp only [stackValue, decodeInt]
    have h4 : 256 ^ bs.length ≤ 256 ^ 2 := Nat.pow_le_pow_right (by norm_num) hl
    split
    · rfl
    · exact wrap32_small (by omega) (by omega)

theorem bytes_eq {b : InBuf} {pos size : Nat} (h : pos + size ≤ b.data.length) :
    b.bytes pos size = ok ((b.data.drop pos).take size) := by
  unfold InBuf.bytes
  refine mapN_eq_ok.mpr ⟨by simp; omega, fun i hi => ?_⟩
  simp at hi
  rw [show (pos : Int) + (i : Nat) = ((pos + i : Nat) : Int) by push_cast; rfl,
    rd_nat_ok (by omega)]
  simp

theorem readOp_items (m : Machine α) {format size : Nat} {k : Kind} (signed : Bool)
    (hf : formatOf format = some (k, size))
    (hk : (signed = true ∧ k = .int ∧ size ≤ 4) ∨ (signed = false ∧ k = .uint ∧ size ≤ 2)) (big : Bool)
    (num : Nat) (width : Int) {n : Nat} {d : Data α} {b : InBuf} (hb : d.inputs[n]? = some b) {pos : Nat}
    (hpos : b.pos = pos) (hroom : pos + num * size ≤ b.data.length) (hlen : b.data.length < 2 ^ 62)
    (hbytes : ∀ x ∈ b.data, x < 256) (hstack : d.stack.length + num ≤ m.stackMax) :
    readOp m format big num width n none d =
      ok ({ d with
            stack := ((List.range num).map fun i =>
              itemAt big signed size b.data (pos + i * size)).reverse ++ d.stack,
            inputs := d.inputs.set n { b with pos := pos + num * size } }, .none) := by
  have hne : format ≠ 14 ∧ format ≠ 15 ∧ format ≠ 16 := by
    refine ⟨?_, ?_, ?_⟩ <;> rintro rfl <;> simp [formatOf] at hf
  unfold readOp
  rw [if_neg hne.1, if_neg hne.2.1, if_neg hne.2.2, hf]
  have hrd : rd d.inputs (n : Int) = ok b := rd_eq_ok.mpr ⟨by omega, by simpa using hb⟩
  simp only [hrd, bind_ok]
  have hmul : ((num * size : Nat) : Int) = (num : Int) * size := by push_cast; rfl
  rw [← hmul, wrap64_small (by omega) (by omega)]
  have hread : b.read ((num * size : Nat) : Int) =
      ({ b with pos := pos + num * size }, .none, b.pos) := by
    unfold InBuf.read
    simp only
    rw [wrap64_small (by omega) (by omega), if_neg (by omega), hpos]
    simp
  rw [hread]
  simp only [if_true, hpos, Int.toNat_natCast]
  rw [readItems m _ (fun i => itemAt big signed size b.data (pos + i * size)) num 0 _ ?_
    (by simpa using hstack)]
  · simp [List.range_eq_range']
  · intro j d' _ hj
    have hjs : j * size + size ≤ num * size := by
      have : (j + 1) * size ≤ num * size := Nat.mul_le_mul_right _ (by omega)
      linarith
    have e : (pos : Int) + (j : Int) * (size : Int) = ((pos + j * size : Nat) : Int) := by push_cast; rfl
    rw [e, bytes_eq (by omega), bind_ok]
    congr 1
    have hbs : ∀ x ∈ (b.data.drop (pos + j * size)).take size, x < 256 := fun x hx =>
      hbytes x (List.mem_of_mem_drop (List.mem_of_mem_take hx))
    have hsz : ((b.data.drop (pos + j * size)).take size).length = size := by simp; omega
    unfold itemAt swapBytes
    refine decode_number m ?_ ?_
    · split <;> simpa [hsz] using hk
    · split
      · simpa using hbs
      · exact hbs

end Awk.Forth
