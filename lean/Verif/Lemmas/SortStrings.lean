import Verif.Lemmas.SortTop
import Verif.Lemmas.Shape
/-
Sorting strings.
-/

namespace Awk
open R

/-! ### The comparison -/

/-- The comparison of two strings in ascending order. -/
def textLt (x y : List Int) : Bool :=
  match strncmp x y with
  | .eq => decide (x.length < y.length)
  | .lt => true
  | .gt => false

@[simp] theorem textLt_nil_nil : textLt [] [] = false := rfl
@[simp] theorem textLt_nil_cons (b : Int) (bs : List Int) : textLt [] (b :: bs) = true := rfl
@[simp] theorem textLt_cons_nil (a : Int) (as : List Int) : textLt (a :: as) [] = false := rfl

theorem textLt_cons (a b : Int) (as bs : List Int) : textLt (a :: as) (b :: bs)
    = if a < b then true else if b < a then false else if a = 0 then decide (as.length < bs.length) else textLt as bs := by
  unfold textLt
  simp only [strncmp]
  split_ifs <;> first | rfl | skip
  all_goals simp

theorem textLt_asymm : ∀ {x y : List Int}, textLt x y = true → textLt y x = false
  | [], [], _ => rfl
  | [], _ :: _, _ => rfl
  | _ :: _, [], h => by simp at h
  | a :: as, b :: bs, h => by
    rw [textLt_cons] at h ⊢
    by_cases h1 : a < b
    · rw [if_neg (by omega), if_pos h1]
    · by_cases h2 : b < a
      · rw [if_neg h1, if_pos h2] at h; cases h
      · obtain rfl : a = b := by omega
        by_cases h3 : a = 0
        · subst h3
          simp only [Int.lt_irrefl, if_false, if_true, decide_eq_true_eq, decide_eq_false_iff_not] at h ⊢
          omega
        · simp only [Int.lt_irrefl, if_false, h3] at h ⊢
          exact textLt_asymm h

theorem textLt_neg : ∀ {x z : List Int} (y : List Int), textLt x z = true → textLt x y = true ∨ textLt y z = true
  | [], [], _, h => by simp at h
  | _ :: _, [], _, h => by simp at h
  | [], _ :: _, [], _ => .inr rfl
  | [], _ :: _, _ :: _, _ => .inl rfl
  | a :: as, c :: cs, [], _ => .inr rfl
  | a :: as, c :: cs, b :: bs, h => by
    rw [textLt_cons] at h
    rw [textLt_cons, textLt_cons]
    by_cases h1 : a < b
    · left; rw [if_pos h1]
    by_cases h2 : b < c
    · right; rw [if_pos h2]
    by_cases h3 : a < c
    · omega
    by_cases h4 : c < a
    · rw [if_neg h3, if_pos h4] at h; cases h
    · obtain rfl : a = c := by omega
      obtain rfl : a = b := by omega
      simp only [Int.lt_irrefl, if_false] at h ⊢
      by_cases h5 : a = 0
      · simp only [h5, if_true, decide_eq_true_eq] at h ⊢
        omega
      · simp only [h5, if_false] at h ⊢
        exact textLt_neg bs h

/-- Without zero bytes it is the alphabetical order. -/
theorem textLt_before : ∀ {x y : List Int}, 0 ∉ x → textLt x y = Spec.before x y
  | [], [], _ => rfl
  | [], _ :: _, _ => rfl
  | _ :: _, [], _ => rfl
  | a :: as, b :: bs, h => by
    simp only [List.mem_cons, not_or] at h
    rw [textLt_cons, Spec.before, textLt_before h.2]
    by_cases h1 : a < b
    · simp [h1]
    · by_cases h2 : b < a
      · rw [if_neg h1, if_pos h2]
        simp [h1, show a ≠ b by omega]
      · obtain rfl : a = b := by omega
        rw [if_neg h1, if_neg h2, if_neg (by omega)]
        simp

/-- A comparison of texts is a strict weak order. -/
theorem textLt_strictWeak (f : Int → List Int) (xs : List Int) :
    strictWeak (fun i j => textLt (f i) (f j)) xs = true := by
  unfold strictWeak
  simp only [List.all_eq_true, Bool.and_eq_true, Bool.or_eq_true, Bool.not_eq_true', beq_iff_eq]
  intro a _ b _
  refine ⟨.inr ?_, ?_⟩
  · cases h : textLt (f a) (f b) with
    | false => rfl
    | true => rw [textLt_asymm h]; rfl
  · intro c _
    cases h : textLt (f a) (f c) with
    | false => exact .inr rfl
    | true =>
      rcases textLt_neg (f b) h with h | h
      · exact .inl (.inl (.inr h))
      · exact .inl (.inr h)

/-! ### The kernel -/

/-- The items of one group. -/
def groupIdx (s k : Nat) : List Int := (List.range k).map (fun (i : Nat) => ((s + i : Nat) : Int))

@[simp] theorem groupIdx_length (s k : Nat) : (groupIdx s k).length = k := by simp [groupIdx]

theorem groupIdx_succ (s k : Nat) : groupIdx s (k + 1) = groupIdx s k ++ [((s + k : Nat) : Int)] := by
  simp [groupIdx, List.range_succ]

/-- Writing one group. -/
theorem flush_ok {f : Int → Int} {index tocarry : List Int} {s : Nat} (h : s + index.length ≤ tocarry.length) :
    ∃ t, forN index.length (fun j tocarry => rd index (j : Int) >>= fun x =>
        wr tocarry ((s : Int) + (j : Int)) (f x)) tocarry = ok t ∧ t.length = tocarry.length ∧
      part t s index.length = index.map f ∧ ∀ i, i < s → t[i]? = tocarry[i]? := by
  obtain ⟨t, h1, h2, h3, h4⟩ := forN_inv (n := index.length) (body := fun j tocarry => rd index (j : Int) >>= fun x =>
        wr tocarry ((s : Int) + (j : Int)) (f x)) (s := tocarry)
    (fun i t => t.length = tocarry.length ∧ (∀ j, j < i → t[s + j]? = (index[j]?).map f) ∧
      ∀ j, j < s → t[j]? = tocarry[j]?) ⟨rfl, by simp, by simp⟩ (by
    rintro i hi t ⟨h1, h2, h3⟩
    rw [rd_nat_ok hi, bind_ok, show (s : Int) + (i : Int) = ((s + i : Nat) : Int) by push_cast; rfl,
      wr_nat_ok (by omega)]
    refine ⟨_, rfl, by simpa using h1, ?_, ?_⟩
    · intro j hj
      rw [List.getElem?_set]
      by_cases hji : j = i
      · subst hji
        rw [if_pos rfl, if_pos (by omega), List.getElem?_eq_getElem hi]; rfl
      · rw [if_neg (by omega), h2 j (by omega)]
    · intro j hj
      rw [List.getElem?_set, if_neg (by omega), h3 j hj])
  refine ⟨t, h1, h2, ?_, h4⟩
  apply List.ext_getElem?
  intro i
  by_cases hi : i < index.length
  · rw [part_getElem? hi, h3 i hi, List.getElem?_map]
  · rw [List.getElem?_eq_none (by rw [part_length (by omega)]; omega), List.getElem?_eq_none (by simp; omega)]

/-- The sorting call of the kernel. -/
def sortIdx (std : StdSort) (stable : Bool) (lt : Int → Int → Bool) (xs : List Int) : R (List Int) :=
  if stable then stableSort lt xs else unstableSort std lt xs

theorem argsort_strings_ok {std : StdSort} {m : Nat → Nat} {out : Nat} {data : List Atom} {starts stops tocarry : List Int}
    {stable ascending local_ : Bool} {srt : Nat → Nat → List Int} (ht : tocarry.length = sumTo m out)
    (hs : ∀ s k, sortIdx std stable (stringSorter ascending data starts stops) (groupIdx s k) = ok (srt s k))
    (hl : ∀ s k, (srt s k).length = k) :
    ∃ t, ListOffsetArray_argsort_strings std tocarry (nats (blk m out) (sumTo m out)) (sumTo m out) data starts stops
        stable ascending local_ = ok t ∧ t.length = sumTo m out ∧
      ∀ p, p < out → part t (sumTo m p) (m p)
        = (srt (sumTo m p) (m p)).map (fun x : Int => if local_ then x - ((sumTo m p : Nat) : Int) else x) := by
  unfold ListOffsetArray_argsort_strings
  generalize hlt : stringSorter ascending data starts stops = lt at hs
  set N := sumTo m out with hN
  -- the group that is being collected before step `i`
  let cur : Nat → Nat := fun i => if i = 0 then 0 else blk m out (i - 1)
  have hsort : ∀ s k, (if stable then stableSort lt (groupIdx s k) else unstableSort std lt (groupIdx s k)) = ok (srt s k) := hs
  obtain ⟨st, e1, e2⟩ := forN_inv (n := N + 1) (s := ({ tocarry, firstindex := 0, lastparent := -1, index := [] } : StringState))
    (body := fun i (st : StringState) =>
      (if i = N then ok true
        else rd (nats (blk m out) N) (i : Int) >>= fun p => ok (decide (p ≠ st.lastparent))) >>= fun flush =>
      (if flush then
        (if stable then stableSort lt st.index else unstableSort std lt st.index) >>= fun index =>
        forN index.length (fun j tocarry =>
          rd index (j : Int) >>= fun x =>
          wr tocarry (st.firstindex + (j : Int)) (if local_ then x - st.firstindex else x)) st.tocarry
          >>= fun tocarry => ok { st with tocarry, index := [] }
      else ok st) >>= fun st =>
      if i ≠ N then
        rd (nats (blk m out) N) (i : Int) >>= fun p =>
        ok { st with
          firstindex := if st.index.isEmpty then (i : Int) else st.firstindex,
          index := st.index ++ [(i : Int)], lastparent := p }
      else ok st)
    (fun i st => st.tocarry.length = N ∧
      (i ≤ N → (0 < i → sumTo m (cur i) < i ∧ i ≤ sumTo m (cur i + 1) ∧ cur i < out ∧ st.lastparent = (cur i : Nat)) ∧
        (i = 0 → st.lastparent = -1) ∧
        st.firstindex = (sumTo m (cur i) : Nat) ∧ st.index = groupIdx (sumTo m (cur i)) (i - sumTo m (cur i))) ∧
      ∀ p, p < out → (p < cur i ∨ i = N + 1) → part st.tocarry (sumTo m p) (m p)
        = (srt (sumTo m p) (m p)).map (fun x : Int => if local_ then x - ((sumTo m p : Nat) : Int) else x))
    ⟨ht, fun _ => ⟨by omega, by simp, by simp [cur], by simp [cur, groupIdx]⟩, by
      intro p hp h
      rcases h with h | h
      · simp [cur] at h
      · omega⟩ (by
    rintro i hi ⟨tc, fi, lp, ix⟩ ⟨h1, h2, h3⟩
    obtain ⟨h2a, h2b, h2c, h2d⟩ := h2 (by omega)
    simp only at h1 h2a h2b h2c h2d h3
    subst h2c h2d
    -- flushing
    have hflush : (i = 0 ∨ i = sumTo m (cur i + 1)) →
        ∃ t, ((if stable then stableSort lt (groupIdx (sumTo m (cur i)) (i - sumTo m (cur i)))
              else unstableSort std lt (groupIdx (sumTo m (cur i)) (i - sumTo m (cur i)))) >>= fun index =>
          forN index.length (fun j tocarry =>
            rd index (j : Int) >>= fun x =>
            wr tocarry ((sumTo m (cur i) : Nat) + (j : Int)) (if local_ then x - (sumTo m (cur i) : Nat) else x)) tc) = ok t ∧
          t.length = N ∧ (∀ p, p < out → (p < cur i ∨ (p = cur i ∧ 0 < i)) → part t (sumTo m p) (m p)
            = (srt (sumTo m p) (m p)).map (fun x : Int => if local_ then x - ((sumTo m p : Nat) : Int) else x)) := by
      intro hend
      have hki : sumTo m (cur i) ≤ i := by
        rcases Nat.eq_zero_or_pos i with h | h
        · subst h; simp [cur]
        · have := (h2a h).1; omega
      obtain ⟨t, t1, t2, t3, t4⟩ := flush_ok (f := fun x : Int => if local_ then x - ((sumTo m (cur i) : Nat) : Int) else x)
        (index := srt (sumTo m (cur i)) (i - sumTo m (cur i))) (tocarry := tc) (s := sumTo m (cur i))
        (by rw [hl, h1]; omega)
      refine ⟨t, by rw [hsort, bind_ok]; exact t1, by rw [t2, h1], ?_⟩
      intro p hp hpc
      by_cases hpe : p = cur i
      · subst hpe
        have hi0 : 0 < i := by rcases hpc with h | h <;> omega
        have hk : i - sumTo m (cur i) = m (cur i) := by
          rcases hend with h | h
          · omega
          · rw [sumTo_succ] at h; omega
        rw [hl, hk] at t3
        exact t3
      · have hlt' : p < cur i := by omega
        rw [← h3 p hp (.inl hlt')]
        apply part_ext
        intro j hj1 hj2
        apply t4
        have := sumTo_mono (f := m) (show p + 1 ≤ cur i by omega)
        rw [sumTo_succ] at this; omega
    by_cases hiN : i = N
    · -- the last step
      have hend : i = 0 ∨ i = sumTo m (cur i + 1) := by
        rcases Nat.eq_zero_or_pos i with h | h
        · exact .inl h
        · obtain ⟨a1, a2, a3, _⟩ := h2a h
          have := sumTo_mono (f := m) (show cur i + 1 ≤ out by omega)
          omega
      obtain ⟨t, t1, t2, t3⟩ := hflush hend
      simp only [hiN, if_true, bind_ok, ne_eq, not_true, if_false]
      rw [hiN] at t1
      rw [← R.bind_assoc, t1, bind_ok, bind_ok]
      refine ⟨_, rfl, t2, fun h => by omega, ?_⟩
      intro p hp _
      rcases Nat.eq_zero_or_pos i with h | h
      · have h0 : m p = 0 := by
          have := sumTo_mono (f := m) (show p + 1 ≤ out by omega)
          rw [sumTo_succ] at this; omega
        have : srt (sumTo m p) 0 = [] := List.eq_nil_of_length_eq_zero (hl _ _)
        rw [h0, this, part_zero]; rfl
      · by_cases hpc : p ≤ cur i
        · exact t3 p hp (by omega)
        · have h0 : m p = 0 := by
            have ha := sumTo_mono (f := m) (show p + 1 ≤ out by omega)
            have hb := sumTo_mono (f := m) (show cur i + 1 ≤ p by omega)
            rw [sumTo_succ] at ha
            have := (h2a h).2.1
            omega
          have : srt (sumTo m p) 0 = [] := List.eq_nil_of_length_eq_zero (hl _ _)
          rw [h0, this, part_zero]; rfl
    · have hiN' : i < N := by omega
      obtain ⟨b1, b2, b3⟩ := blk_spec (m := m) (out := out) hiN'
      have hcur : cur (i + 1) = blk m out i := by simp [cur]
      simp only [hiN, if_false, rd_nats hiN', bind_ok, ne_eq, not_false_eq_true, if_true]
      by_cases hsame : 0 < i ∧ cur i = blk m out i
      · obtain ⟨hi0, hsame⟩ := hsame
        obtain ⟨a1, a2, a3, a4⟩ := h2a hi0
        rw [a4]
        simp only [hsame, not_true, decide_false, Bool.false_eq_true, if_false, bind_ok]
        have hne : (groupIdx (sumTo m (cur i)) (i - sumTo m (cur i))).isEmpty = false := by
          have : (groupIdx (sumTo m (cur i)) (i - sumTo m (cur i))) ≠ [] := by
            intro h
            have := congrArg List.length h
            simp at this; omega
          simpa using this
        refine ⟨_, rfl, h1, fun _ => ⟨fun _ => ⟨by rw [hcur]; omega, by rw [hcur]; omega, by rw [hcur]; omega, by rw [hcur]⟩,
          by omega, ?_, ?_⟩, ?_⟩
        · rw [← hsame, hne, if_neg (by simp), hcur, hsame]
        · rw [hcur]
          show groupIdx (sumTo m (blk m out i)) (i - sumTo m (blk m out i)) ++ [(i : Int)] = _
          rw [show i + 1 - sumTo m (blk m out i) = (i - sumTo m (blk m out i)) + 1 by omega, groupIdx_succ]
          congr 3; omega
        · intro p hp h
          rcases h with h | h
          · exact h3 p hp (.inl (by rw [hcur] at h; omega))
          · omega
      · have hd : decide (¬ ((blk m out i : Nat) : Int) = lp) = true := by
          rw [decide_eq_true_eq]
          rcases Nat.eq_zero_or_pos i with h | h
          · rw [h2b h]; omega
          · rw [(h2a h).2.2.2]
            intro hc
            exact hsame ⟨h, by omega⟩
        have hend : i = 0 ∨ i = sumTo m (cur i + 1) := by
          rcases Nat.eq_zero_or_pos i with h | h
          · exact .inl h
          · right
            obtain ⟨a1, a2, a3, _⟩ := h2a h
            by_contra hc
            exact hsame ⟨h, (blk_eq a3 (by omega) (by omega)).symm⟩
        obtain ⟨t, t1, t2, t3⟩ := hflush hend
        rw [hd]
        simp only [if_true]
        rw [← R.bind_assoc, t1, bind_ok, bind_ok]
        have hbeg : sumTo m (blk m out i) = i := by
          rcases hend with h | h
          · omega
          · rcases Nat.eq_zero_or_pos i with h0 | h0
            · omega
            · obtain ⟨a1, a2, a3, _⟩ := h2a h0
              have hle : cur i ≤ blk m out i := by
                by_contra hc
                have := sumTo_mono (f := m) (show blk m out i + 1 ≤ cur i by omega)
                omega
              have hne : cur i ≠ blk m out i := fun hc => hsame ⟨h0, hc⟩
              have := sumTo_mono (f := m) (show cur i + 1 ≤ blk m out i by omega)
              omega
        refine ⟨_, rfl, t2, fun _ => ⟨fun _ => ⟨by rw [hcur]; omega, by rw [hcur]; omega, by rw [hcur]; omega, by rw [hcur]⟩,
          by omega, ?_, ?_⟩, ?_⟩
        · rw [hcur, hbeg]; rfl
        · rw [hcur, hbeg]
          show ([] : List Int) ++ [(i : Int)] = _
          rw [show i + 1 - i = 0 + 1 by omega, groupIdx_succ]
          simp [groupIdx]
        · intro p hp h
          rcases h with h | h
          · rw [hcur] at h
            by_cases hpc : p ≤ cur i
            · rcases Nat.eq_zero_or_pos i with h0 | h0
              · have : m p = 0 := by
                  have ha := sumTo_mono (f := m) (show p + 1 ≤ blk m out i by omega)
                  rw [sumTo_succ] at ha; omega
                have hnil : srt (sumTo m p) 0 = [] := List.eq_nil_of_length_eq_zero (hl _ _)
                rw [this, hnil, part_zero]; rfl
              · exact t3 p hp (by omega)
            · have : m p = 0 := by
                have ha := sumTo_mono (f := m) (show p + 1 ≤ blk m out i by omega)
                have hb := sumTo_mono (f := m) (show cur i + 1 ≤ p by omega)
                rw [sumTo_succ] at ha
                rcases Nat.eq_zero_or_pos i with h0 | h0
                · omega
                · have := (h2a h0).2.1
                  omega
              have hnil : srt (sumTo m p) 0 = [] := List.eq_nil_of_length_eq_zero (hl _ _)
              rw [this, hnil, part_zero]; rfl
          · omega)
  refine ⟨st.tocarry, ?_, e2.1, fun p hp => e2.2.2 p hp (.inr rfl)⟩
  dsimp only
  rw [e1, bind_ok]


namespace Content
open Spec (Strings Chars Lawful)

variable {a : SortArgs}

/-- What one group of strings becomes. -/
def TextRel (a : SortArgs) (xs ys : List Val) : Prop :=
  if a.arg then Spec.StringsArgSorted a.stable xs ys else Spec.StringsSorted xs ys

theorem textRel_nil : TextRel a [] [] := by
  unfold TextRel
  cases a.arg
  · exact ⟨List.Perm.refl _, fun _ => List.Pairwise.nil⟩
  · exact ⟨[], List.Perm.refl _, rfl, fun _ => List.Pairwise.nil⟩

theorem textDepth_nil (d : Nat) : Spec.AtDepth (TextRel a) d [] [] := by
  cases d with
  | zero => exact textRel_nil
  | succ d => exact List.Forall₂.nil

/-- The sorted items of a group. -/
def sorted (a : SortArgs) (lt : Int → Int → Bool) (xs : List Int) : List Int :=
  if a.stable then xs.foldr (insertBy lt) [] else a.std lt xs

theorem groupIdx_pairwise (s k : Nat) : (groupIdx s k).Pairwise (· < ·) := by
  unfold groupIdx
  rw [List.pairwise_map]
  exact List.pairwise_lt_range.imp (fun h => by omega)

theorem sorted_ok (f : Int → List Int) (hstd : a.stable = true ∨ Lawful a.std) (s k : Nat) :
    sortIdx a.std a.stable (fun i j => textLt (f i) (f j)) (groupIdx s k)
      = ok (sorted a (fun i j => textLt (f i) (f j)) (groupIdx s k)) ∧
    (sorted a (fun i j => textLt (f i) (f j)) (groupIdx s k)).Perm (groupIdx s k) ∧
    (sorted a (fun i j => textLt (f i) (f j)) (groupIdx s k)).Pairwise (fun i j => textLt (f j) (f i) = false ∧
      (a.stable = true → textLt (f i) (f j) = false → i < j)) := by
  have hw := textLt_strictWeak f (groupIdx s k)
  unfold sortIdx sorted
  cases hs : a.stable with
  | true =>
    obtain ⟨ys, h1, h2, h3⟩ := stableSort_ok hw (groupIdx_pairwise s k)
    have h4 : ys = (groupIdx s k).foldr (insertBy fun i j => textLt (f i) (f j)) [] := by
      unfold stableSort at h1
      rw [if_pos hw] at h1
      exact (R.ok.inj h1).symm
    simp only [if_true]
    rw [h4] at h1 h2 h3
    exact ⟨h1, h2, h3.imp (fun h => ⟨h.1, fun _ => h.2⟩)⟩
  | false =>
    simp only [Bool.false_eq_true, if_false]
    obtain ⟨h1, h2⟩ := (hstd.resolve_left (by simp [hs])) _ _ ((groupIdx_pairwise s k).imp (fun h => by omega)) hw
    exact ⟨by unfold unstableSort; rw [if_pos hw], h1, h2.imp (fun h => ⟨h, fun h => by simp at h⟩)⟩

/-- The bytes that the kernel compares are those of the shown string. -/
theorem bytesOf_text {p q : Params} {offsets : List Int} {data : List Atom}
    (h : (listOffset p offsets (numpy q .uint8 data)).Good) {i : Nat} (hi : i + 1 < offsets.length) :
    bytesOf data ((makeStarts offsets)[i]?.getD 0) ((makeStops offsets)[i]?.getD 0)
      = Spec.text ((listOffset p offsets (numpy q .uint8 data)).valD i) := by
  have e1 : (makeStarts offsets)[i]? = some offsets[i] := by
    unfold makeStarts
    rw [List.getElem?_take, if_pos (by omega), List.getElem?_eq_getElem (by omega)]
  have e2 : (makeStops offsets)[i]? = some offsets[i + 1] := by
    unfold makeStops
    rw [List.getElem?_drop, Nat.add_comm, List.getElem?_eq_getElem (by omega)]
  rw [e1, e2]
  unfold Spec.text
  rw [valD_listOffset h hi, items_wrapList]
  simp only [Option.getD_some]
  have hp := (good_listOffset.mp h).2.2 i hi
  unfold bytesOf
  by_cases hn : (offsets[i + 1] - offsets[i]).toNat = 0
  · rw [hn]; simp [Spec.present]
  · rcases hp with hp | ⟨h1, h2, h3⟩
    · rw [hp] at hn; simp at hn
    · simp only [len] at h3
      rw [seg_numpy (by omega), present_atoms]; rfl

theorem chars_layout {p : Params} {offsets : List Int} {d : Content} (h : (listOffset p offsets d).Good) (hc : Chars p d) :
    (listOffset p offsets d).validity = ok () ∧ (p.arr = .string ∨ p.arr = .bytestring) := by
  obtain ⟨q, data, rfl, hc⟩ := hc
  refine ⟨validity_of_layout h ?_, ?_⟩
  · simp only [layout]
    rcases hc with ⟨h1, h2⟩ | ⟨h1, h2⟩
    · simp [paramsOkList, h1, stringContentOk, h2]
    · simp [paramsOkList, h1, stringContentOk, h2]
  · rcases hc with ⟨h1, h2⟩ | ⟨h1, h2⟩
    · exact .inl h1
    · exact .inr h1

theorem part_length' {xs : List α} {s n : Nat} : (part xs s n).length = min n (xs.length - s) := by
  unfold part; simp

theorem sort_text {fuel : Nat} {p : Params} {offsets : List Int} {d : Content} {m : Nat → Nat} {out : Nat}
    {starts : List Int} {outlength : Nat} (keepdims : Bool) (hasc : a.ascending = true)
    (hstd : a.stable = true ∨ Lawful a.std)
    (h : (listOffset p offsets d).Good) (hc : Chars p d) (h0 : 0 < (listOffset p offsets d).len)
    (hl : (listOffset p offsets d).len = sumTo m out) :
    ∃ o, sortNext a (fuel + 1) 1 starts (nats (blk m out) (listOffset p offsets d).len) outlength keepdims
        (listOffset p offsets d)
        = ok (if keepdims then regular {} o o.len 0 else o) ∧ o.Good ∧ o.len = (listOffset p offsets d).len ∧
      (∀ g, g < out → TextRel a ((listOffset p offsets d).seg (sumTo m g) (m g)) (o.seg (sumTo m g) (m g))) ∧
      (∀ q c s z, o ≠ regular q c s z) ∧
      ∀ q offs e, o = listOffset q offs e → e = d ∧ ∀ x ∈ offs, x ∈ offsets := by
  obtain ⟨hval, hstr⟩ := chars_layout h hc
  obtain ⟨q, data, rfl, -⟩ := hc
  generalize hcc : listOffset p offsets (numpy q .uint8 data) = c at *
  have hlen : c.len = offsets.length - 1 := by rw [← hcc]; rfl
  have hbd : c.branchDepth = (false, 1) := by
    rw [← hcc]; simp only [branchDepth]; rw [if_pos hstr]
  set f : Int → List Int := fun i => bytesOf data ((makeStarts offsets)[i.toNat]?.getD 0) ((makeStops offsets)[i.toNat]?.getD 0) with hf
  have htext : ∀ i, i < c.len → f (i : Int) = Spec.text (c.valD i) := by
    intro i hi
    rw [← hcc]
    exact bytesOf_text (hcc ▸ h) (by omega)
  set lt : Int → Int → Bool := fun i j => textLt (f i) (f j) with hlt
  have hsorter : stringSorter a.ascending data (makeStarts offsets) (makeStops offsets) = lt := by
    funext i j
    rw [hasc]; rfl
  set srt : Nat → Nat → List Int := fun s k => sorted a lt (groupIdx s k) with hsrt
  have hso := fun s k => sorted_ok (a := a) f hstd s k
  obtain ⟨t, t1, t2, t3⟩ := argsort_strings_ok (std := a.std) (m := m) (out := out) (data := data)
    (starts := makeStarts offsets) (stops := makeStops offsets) (tocarry := alloc c.len) (stable := a.stable)
    (ascending := a.ascending) (local_ := a.arg) (srt := srt) (by rw [alloc_length, hl])
    (by intro s k; rw [hsorter]; exact (hso s k).1)
    (by intro s k; rw [(hso s k).2.1.length_eq, groupIdx_length])
  -- what one group looks like
  have hgrp : ∀ s k, (groupIdx s k).map (fun x => c.valD x.toNat) = c.seg s k := by
    intro s k
    unfold groupIdx seg
    rw [List.map_map]; rfl
  have hmem : ∀ s k (x : Int), x ∈ srt s k → ∃ i, i < k ∧ x = ((s + i : Nat) : Int) := by
    intro s k x hx
    have := (hso s k).2.1.mem_iff.mp hx
    unfold groupIdx at this
    obtain ⟨i, hi, rfl⟩ := List.mem_map.mp this
    exact ⟨i, List.mem_range.mp hi, rfl⟩
  have hstep : ∀ out', (if a.arg then ok (numpy {} .int64 (t.map Atom.int)) else c.carry false t) = ok out' →
      sortNext a (fuel + 1) 1 starts (nats (blk m out) c.len) outlength keepdims c
        = ok (if keepdims then regular {} out' out'.len 0 else out') := by
    intro out' ho
    have h1 : sortNext a (fuel + 1) 1 starts (nats (blk m out) c.len) outlength keepdims c
        = sortStrings a 1 (nats (blk m out) c.len) keepdims p offsets (numpy q .uint8 data) := by
      rw [← hcc]
      simp only [sortNext]
      rw [if_neg (by rw [hcc]; omega), if_pos hstr]
    rw [h1]
    unfold sortStrings
    rw [hcc, if_neg (by rw [hbd]; simp), hval, bind_ok]
    simp only [nats_length]
    rw [hl] at t1 ⊢
    rw [t1, bind_ok, ho, bind_ok]
  cases ha : a.arg with
  | true =>
    rw [ha] at t3
    simp only [if_true] at t3
    refine ⟨_, hstep _ (by rw [ha, if_pos rfl]), good_numpy _ _ _, by simp only [len, List.length_map]; omega, ?_, by simp, by simp⟩
    intro g hg
    have hb := group_bound (m := m) hg
    unfold TextRel
    rw [ha, if_pos rfl, seg_numpy (by rw [List.length_map]; omega), part_map, List.map_map, t3 g hg]
    have hso' := hso (sumTo m g) (m g)
    refine ⟨(srt (sumTo m g) (m g)).map (fun x : Int => (x - ((sumTo m g : Nat) : Int)).toNat), ?_, ?_, ?_⟩
    · refine (hso'.2.1.map _).trans (List.Perm.of_eq ?_)
      rw [seg_length]
      unfold groupIdx
      rw [List.map_map]
      conv_rhs => rw [← List.map_id (List.range (m g))]
      apply List.map_congr_left
      intro i _
      simp only [Function.comp_apply, id]; omega
    · rw [List.map_map, List.map_map]
      apply List.map_congr_left
      intro x hx
      obtain ⟨i, hi, rfl⟩ := hmem _ _ x hx
      simp only [Function.comp_apply]
      congr 2; omega
    · intro hz
      rw [List.pairwise_map]
      refine List.Pairwise.imp_of_mem ?_ hso'.2.2
      intro i j hi hj hij x y hx hy
      obtain ⟨i, hi', rfl⟩ := hmem _ _ i hi
      obtain ⟨j, hj', rfl⟩ := hmem _ _ j hj
      replace hi := hi'
      replace hj := hj'
      rw [show (((sumTo m g + i : Nat) : Int) - (sumTo m g : Nat)).toNat = i by omega, seg_getElem?, if_pos hi] at hx
      rw [show (((sumTo m g + j : Nat) : Int) - (sumTo m g : Nat)).toNat = j by omega, seg_getElem?, if_pos hj] at hy
      injection hx with hx
      injection hy with hy
      rw [htext _ (by omega), htext _ (by omega), hx, hy] at hij
      have hzx : 0 ∉ Spec.text x := hz x (hx ▸ mem_seg.mpr ⟨i, hi, rfl⟩)
      have hzy : 0 ∉ Spec.text y := hz y (hy ▸ mem_seg.mpr ⟨j, hj, rfl⟩)
      rw [textLt_before hzx, textLt_before hzy] at hij
      refine ⟨hij.1, fun k1 k2 => ?_⟩
      have := hij.2 k1 k2
      omega
  | false =>
    rw [ha] at t3
    simp only [Bool.false_eq_true, if_false, List.map_id'] at t3
    have hin : InRange t c.len := by
      intro x hx
      obtain ⟨j, hj, rfl⟩ := List.mem_iff_getElem.mp hx
      obtain ⟨b1, b2, b3⟩ := blk_spec (m := m) (out := out) (i := j) (by omega)
      rw [sumTo_succ] at b3
      have hjk : j - sumTo m (blk m out j) < m (blk m out j) := by omega
      have hmemt : t[j] ∈ srt (sumTo m (blk m out j)) (m (blk m out j)) := by
        rw [← t3 _ b1]
        refine List.mem_of_getElem? (i := j - sumTo m (blk m out j)) ?_
        rw [part_getElem? hjk, show sumTo m (blk m out j) + (j - sumTo m (blk m out j)) = j by omega,
          List.getElem?_eq_getElem hj]
      obtain ⟨i, hi, hx⟩ := hmem _ _ _ hmemt
      have := group_bound (m := m) b1
      omega
    obtain ⟨o, o1, o2, o3, o4⟩ := carry_good h false hin
    have hol : o.len = c.len := by rw [o4.1, t2, hl]
    refine ⟨o, hstep _ (by rw [ha, if_neg (by simp)]; exact o1), o2, hol, ?_, ?_⟩
    · intro g hg
      have hb := group_bound (m := m) hg
      have hso' := hso (sumTo m g) (m g)
      have hseg : o.seg (sumTo m g) (m g) = (srt (sumTo m g) (m g)).map (fun x => c.valD x.toNat) := by
        rw [← t3 g hg]
        apply List.ext_getElem?
        intro i
        rw [seg_getElem?, List.getElem?_map]
        by_cases hi : i < m g
        · rw [if_pos hi, part_getElem? hi, o4.valD (by omega), List.getElem?_eq_getElem (by omega)]; rfl
        · rw [if_neg hi, List.getElem?_eq_none (by rw [part_length (by omega)]; omega)]; rfl
      unfold TextRel
      rw [ha, if_neg (by simp), hseg]
      refine ⟨?_, ?_⟩
      · rw [← hgrp]; exact hso'.2.1.map _
      · intro hz
        rw [List.pairwise_map]
        refine List.Pairwise.imp_of_mem ?_ hso'.2.2
        intro i j hi hj hij
        obtain ⟨i, hi', rfl⟩ := hmem _ _ i hi
        obtain ⟨j, hj', rfl⟩ := hmem _ _ j hj
        have h1 := hij.1
        rw [htext _ (by omega), htext _ (by omega), textLt_before (hz _ (mem_seg.mpr ⟨j, hj', rfl⟩))] at h1
        exact h1
    · rw [← hcc] at o1
      simp only [carry] at o1
      split at o1
      · rw [if_pos (by rw [hcc, t2, hl])] at o1
        cases o1
        exact ⟨by simp, fun q offs e he => by cases he; exact ⟨rfl, fun _ h => h⟩⟩
      · obtain ⟨⟨s1, s2⟩, _, o1⟩ := bind_eq_ok.mp o1
        cases o1
        exact ⟨by simp, by simp⟩

end Content
end Awk
