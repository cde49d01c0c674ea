import Verif.Model.Sort
import Verif.Lemmas.Loops
/-
`quick_sort` sorts: it ends, it stays within the array and its stacks, and the result is a sorted
permutation.
-/

namespace Awk
open R

/-- A loop that keeps an invariant and comes to an end. -/
theorem whileF_ok {σ : Type} {I : σ → Prop} {μ : σ → Nat} {cond : σ → Bool} {body : σ → R σ}
    (h : ∀ s, I s → cond s = true → ∃ s', body s = ok s' ∧ I s' ∧ μ s' < μ s) :
    ∀ fuel s, I s → μ s ≤ fuel → ∃ s', whileF fuel cond body s = ok s' ∧ I s' ∧ cond s' = false := by
  intro fuel
  induction fuel with
  | zero =>
    intro s hs hf
    cases hc : cond s with
    | false => exact ⟨s, by simp [whileF, hc], hs, hc⟩
    | true => obtain ⟨s', _, _, h3⟩ := h s hs hc; omega
  | succ fuel ih =>
    intro s hs hf
    cases hc : cond s with
    | false => exact ⟨s, by simp [whileF, hc], hs, hc⟩
    | true =>
      obtain ⟨s', h1, h2, h3⟩ := h s hs hc
      obtain ⟨t, t1, t2, t3⟩ := ih s' h2 (by omega)
      exact ⟨t, by simp [whileF, hc, h1, t1], t2, t3⟩

theorem set_swap_perm {arr : List α} {i j : Nat} {x pivot : α} (hi : i < arr.length)
    (hx : arr[j]? = some x) (hij : i ≠ j) :
    ((arr.set i x).set j pivot).Perm (arr.set i pivot) := by
  obtain ⟨hj, rfl⟩ := List.getElem?_eq_some_iff.mp hx
  have := List.set_set_perm (as := arr.set i pivot) (i := i) (j := j) (by simpa using hi) (by simpa using hj)
  simpa [List.getElem_set, hij, Ne.symm hij] using this

variable {α : Type}

theorem scanDown_ok {before : α → R Bool} {b : α → Bool} {arr : List α} {low : Nat}
    (hb : ∀ x ∈ arr, before x = ok (b x)) :
    ∀ (f high : Nat), low ≤ high → high < arr.length → high < low + f →
    ∃ h : Nat, scanDown before arr low f high = ok (h : Int) ∧ low ≤ h ∧ h ≤ high ∧
      (∀ k x, arr[k]? = some x → h < k → k ≤ high → b x = true) ∧
      (h = low ∨ ∀ x, arr[h]? = some x → b x = false) := by
  intro f
  induction f with
  | zero => intro high h1 h2 h3; omega
  | succ f ih =>
    intro high h1 h2 h3
    unfold scanDown
    rw [rd_nat_ok h2, bind_ok, hb _ (List.getElem_mem h2), bind_ok]
    cases hc : b arr[high] with
    | false =>
      refine ⟨high, by simp, h1, Nat.le_refl _, fun k x _ h4 h5 => by omega, .inr fun x hx => ?_⟩
      obtain ⟨_, rfl⟩ := List.getElem?_eq_some_iff.mp hx
      exact hc
    | true =>
      by_cases hl : low < high
      · rw [if_pos (by simp; omega)]
        obtain ⟨h, g1, g2, g3, g4, g5⟩ := ih (high - 1) (by omega) (by omega) (by omega)
        refine ⟨h, ?_, g2, by omega, ?_, g5⟩
        · rw [show (high : Int) - 1 = ((high - 1 : Nat) : Int) by omega]; exact g1
        · intro k x hx h4 h5
          by_cases hk : k = high
          · subst hk
            obtain ⟨_, rfl⟩ := List.getElem?_eq_some_iff.mp hx
            exact hc
          · exact g4 k x hx h4 (by omega)
      · rw [if_neg (by simp; omega)]
        exact ⟨high, rfl, h1, Nat.le_refl _, fun k x _ h4 h5 => by omega, .inl (by omega)⟩

theorem scanUp_ok {before : α → R Bool} {b : α → Bool} {arr : List α} {high : Nat}
    (hb : ∀ x ∈ arr, before x = ok (b x)) (hh : high < arr.length) :
    ∀ (f low : Nat), low ≤ high → high < low + f →
    ∃ l : Nat, scanUp before arr high f low = ok (l : Int) ∧ low ≤ l ∧ l ≤ high ∧
      (∀ k x, arr[k]? = some x → low ≤ k → k < l → b x = true) ∧
      (l = high ∨ ∀ x, arr[l]? = some x → b x = false) := by
  intro f
  induction f with
  | zero => intro low h1 h2; omega
  | succ f ih =>
    intro low h1 h3
    have h2 : low < arr.length := by omega
    unfold scanUp
    rw [rd_nat_ok h2, bind_ok, hb _ (List.getElem_mem h2), bind_ok]
    cases hc : b arr[low] with
    | false =>
      refine ⟨low, by simp, Nat.le_refl _, h1, fun k x _ h4 h5 => by omega, .inr fun x hx => ?_⟩
      obtain ⟨_, rfl⟩ := List.getElem?_eq_some_iff.mp hx
      exact hc
    | true =>
      by_cases hl : low < high
      · rw [if_pos (by simp; omega)]
        obtain ⟨l, g1, g2, g3, g4, g5⟩ := ih (low + 1) (by omega) (by omega)
        refine ⟨l, ?_, by omega, g3, ?_, g5⟩
        · rw [show (low : Int) + 1 = ((low + 1 : Nat) : Int) by omega]; exact g1
        · intro k x hx h4 h5
          by_cases hk : k = low
          · subst hk
            obtain ⟨_, rfl⟩ := List.getElem?_eq_some_iff.mp hx
            exact hc
          · exact g4 k x hx (by omega) h5
      · rw [if_neg (by simp; omega)]
        exact ⟨low, rfl, Nat.le_refl _, h1, fun k x _ h4 h5 => by omega, .inl (by omega)⟩

/-- The comparison, on the items of an array. -/
structure Compares (P : α → Prop) (cmp : α → α → R Bool) (le : α → α → Bool) : Prop where
  eval : ∀ x y, P x → P y → cmp x y = ok (le x y)
  total : ∀ x y, P x → P y → le x y = true ∨ le y x = true
  trans : ∀ x y z, P x → P y → P z → le x y = true → le y z = true → le x z = true

variable {P : α → Prop} {cmp : α → α → R Bool} {le : α → α → Bool}

/-- What the partition keeps. -/
structure Parted (le : α → α → Bool) (P : α → Prop) (pivot : α) (beg fin low high : Nat) (arr : List α) : Prop where
  all : ∀ x ∈ arr, P x
  left : ∀ k x, arr[k]? = some x → beg ≤ k → k < low → le x pivot = true
  right : ∀ k x, arr[k]? = some x → high < k → k < fin → le pivot x = true

theorem mem_set_of {arr : List α} {i : Nat} {x y : α} (h : y ∈ arr.set i x) : y ∈ arr ∨ y = x := by
  rcases List.mem_or_eq_of_mem_set h with h | h
  · exact .inl h
  · exact .inr h

theorem partition_ok (hc : Compares P cmp le) {pivot : α} (hp : P pivot) {beg fin : Nat} :
    ∀ (f : Nat) (arr : List α) (low high : Nat), beg ≤ low → low ≤ high → high < fin → fin ≤ arr.length →
    high < low + f → Parted le P pivot beg fin low high arr →
    ∃ (arr' : List α) (m : Nat), partition cmp pivot f arr low high = ok (arr', (m : Int)) ∧ arr'.length = arr.length ∧
      beg ≤ m ∧ m < fin ∧ (arr'.set m pivot).Perm (arr.set low pivot) ∧
      (∀ k, k < beg ∨ fin ≤ k → arr'[k]? = arr[k]?) ∧ Parted le P pivot beg fin m m arr' := by
  intro f
  induction f with
  | zero => intro arr low high h1 h2 h3 h4 h5; omega
  | succ f ih =>
    intro arr low high h1 h2 h3 h4 h5 hpt
    unfold partition
    by_cases hlh : low < high
    · rw [if_pos (by omega)]
      obtain ⟨h', d1, d2, d3, d4, d5⟩ := scanDown_ok (before := fun x => cmp pivot x) (b := fun x => le pivot x)
        (low := low) (fun x hx => hc.eval _ _ hp (hpt.all x hx)) (arr.length + 1) high (by omega) (by omega) (by omega)
      rw [d1, bind_ok]
      by_cases hl : low < h'
      · -- an item moves to the left
        rw [if_pos (by omega), rd_nat_ok (by omega), bind_ok, wr_nat_ok (by omega), bind_ok, bind_ok]
        simp only
        have hx : le pivot arr[h'] = false := by
          rcases d5 with h | h
          · omega
          · exact h _ (List.getElem?_eq_getElem (by omega))
        have hxp : le arr[h'] pivot = true := by
          rcases hc.total pivot arr[h'] hp (hpt.all _ (List.getElem_mem _)) with h | h
          · rw [hx] at h; simp at h
          · exact h
        have hall : ∀ y ∈ arr.set low arr[h'], P y := by
          intro y hy
          rcases mem_set_of hy with h | h
          · exact hpt.all y h
          · rw [h]; exact hpt.all _ (List.getElem_mem _)
        obtain ⟨l', u1, u2, u3, u4, u5⟩ := scanUp_ok (before := fun x => cmp x pivot) (b := fun x => le x pivot)
          (arr := arr.set low arr[h']) (high := h') (fun x hx => hc.eval _ _ (hall x hx) hp)
          (by simp; omega) (arr.length + 1) (low + 1) (by omega) (by omega)
        rw [show (low : Int) + 1 = ((low + 1 : Nat) : Int) by omega, u1, bind_ok]
        have hleft : ∀ k x, (arr.set low arr[h'])[k]? = some x → beg ≤ k → k < l' → le x pivot = true := by
          intro k x hk k1 k2
          by_cases hkl : k = low
          · subst hkl
            rw [List.getElem?_set_self (by omega)] at hk
            injection hk with hk
            rw [← hk]; exact hxp
          · by_cases hk' : k < low
            · rw [List.getElem?_set_ne (by omega)] at hk
              exact hpt.left k x hk k1 hk'
            · exact u4 k x hk (by omega) k2
        have hright : ∀ k x, (arr.set low arr[h'])[k]? = some x → h' < k → k < fin → le pivot x = true := by
          intro k x hk k1 k2
          rw [List.getElem?_set_ne (by omega)] at hk
          by_cases hkh : k ≤ high
          · exact d4 k x hk k1 hkh
          · exact hpt.right k x hk (by omega) k2
        have hperm1 : ((arr.set low arr[h']).set h' pivot).Perm (arr.set low pivot) :=
          set_swap_perm (by omega) (List.getElem?_eq_getElem (by omega)) (by omega)
        by_cases hl2 : l' < h'
        · -- an item moves to the right
          rw [if_pos (by omega), rd_nat_ok (by simp; omega), bind_ok, wr_nat_ok (by simp; omega), bind_ok, bind_ok]
          simp only
          have hl0 : l' < (arr.set low arr[h']).length := by simp; omega
          generalize hy : (arr.set low arr[h'])[l'] = y
          have hy' : (arr.set low arr[h'])[l']? = some y := by rw [List.getElem?_eq_getElem hl0, hy]
          have hym : y ∈ arr.set low arr[h'] := by rw [← hy]; exact List.getElem_mem _
          have hyp : le y pivot = false := by
            rcases u5 with h | h
            · omega
            · exact h _ hy'
          have hpy : le pivot y = true := by
            rcases hc.total pivot y hp (hall y hym) with h | h
            · exact h
            · rw [hyp] at h; simp at h
          generalize harr1 : arr.set low arr[h'] = arr1 at *
          have hlen1 : arr1.length = arr.length := by rw [← harr1]; simp
          obtain ⟨arr', m, p1, p2, p3, p4, p5, p6, p7⟩ := ih (arr1.set h' y) l' (h' - 1) (by omega) (by omega)
            (by omega) (by simp; omega) (by omega) ⟨by
              intro z hz
              rcases mem_set_of hz with h | h
              · exact hall z h
              · rw [h]; exact hall y hym, by
              intro k x hk k1 k2
              rw [List.getElem?_set_ne (by omega)] at hk
              exact hleft k x hk k1 k2, by
              intro k x hk k1 k2
              by_cases hkh : k = h'
              · subst hkh
                rw [List.getElem?_set_self (by omega)] at hk
                injection hk with hk
                rw [← hk]; exact hpy
              · rw [List.getElem?_set_ne (by omega)] at hk
                exact hright k x hk (by omega) k2⟩
          refine ⟨arr', m, ?_, by rw [p2]; simp [hlen1], p3, p4, ?_, ?_, p7⟩
          · rw [show (h' : Int) - 1 = ((h' - 1 : Nat) : Int) by omega]; exact p1
          · exact p5.trans ((set_swap_perm (by omega) hy' (by omega)).trans hperm1)
          · intro k hk
            rw [p6 k hk, List.getElem?_set_ne (by omega), ← harr1, List.getElem?_set_ne (by omega)]
        · have hl2' : l' = h' := by omega
          subst hl2'
          rw [if_neg (by omega), bind_ok]
          simp only
          obtain ⟨arr', m, p1, p2, p3, p4, p5, p6, p7⟩ := ih (arr.set low arr[l']) l' l' (by omega) (by omega)
            (by omega) (by simp; omega) (by omega) ⟨hall, hleft, hright⟩
          exact ⟨arr', m, p1, by simpa using p2, p3, p4, p5.trans hperm1, fun k hk => by
            rw [p6 k hk, List.getElem?_set_ne (by omega)], p7⟩
      · have hl' : h' = low := by omega
        subst hl'
        rw [if_neg (by omega), bind_ok]
        simp only
        obtain ⟨l', u1, u2, u3, u4, u5⟩ := scanUp_ok (before := fun x => cmp x pivot) (b := fun x => le x pivot)
          (arr := arr) (high := h') (fun x hx => hc.eval _ _ (hpt.all x hx) hp)
          (by omega) (arr.length + 1) h' (by omega) (by omega)
        have : l' = h' := by omega
        subst this
        rw [u1, bind_ok, if_neg (by omega), bind_ok]
        simp only
        exact ih arr l' l' h1 (by omega) (by omega) h4 (by omega) ⟨hpt.all, hpt.left, fun k x hk k1 k2 => by
          by_cases hkh : k ≤ high
          · exact d4 k x hk k1 hkh
          · exact hpt.right k x hk (by omega) k2⟩
    · rw [if_neg (by omega)]
      have : low = high := by omega
      subst this
      exact ⟨arr, low, rfl, rfl, h1, h3, List.Perm.refl _, fun _ _ => rfl, hpt⟩

variable [DecidableEq α]

theorem skipDown_ok {arr : List α} {pivot : α} {beg : Nat} :
    ∀ (f low : Nat), beg ≤ low → low ≤ arr.length → low < beg + f →
    ∃ l : Nat, skipDown arr pivot beg f low = ok (l : Int) ∧ beg ≤ l ∧ l ≤ low ∧
      ∀ k x, arr[k]? = some x → l ≤ k → k < low → x = pivot := by
  intro f
  induction f with
  | zero => intro low h1 h2 h3; omega
  | succ f ih =>
    intro low h1 h2 h3
    unfold skipDown
    by_cases hl : beg < low
    · rw [if_pos (by omega), show (low : Int) - 1 = ((low - 1 : Nat) : Int) by omega, rd_nat_ok (by omega), bind_ok]
      split
      · rename_i hx
        obtain ⟨l, g1, g2, g3, g4⟩ := ih (low - 1) (by omega) (by omega) (by omega)
        refine ⟨l, g1, g2, by omega, ?_⟩
        intro k x hk k1 k2
        by_cases hkl : k = low - 1
        · subst hkl
          obtain ⟨_, rfl⟩ := List.getElem?_eq_some_iff.mp hk
          exact hx
        · exact g4 k x hk k1 (by omega)
      · exact ⟨low, rfl, h1, Nat.le_refl _, fun k x _ k1 k2 => by omega⟩
    · rw [if_neg (by omega)]
      exact ⟨low, rfl, h1, Nat.le_refl _, fun k x _ k1 k2 => by omega⟩

theorem skipUp_ok {arr : List α} {pivot : α} {fin : Nat} (hf : fin ≤ arr.length) :
    ∀ (f mid : Nat), mid ≤ fin → fin < mid + f →
    ∃ l : Nat, skipUp arr pivot fin f mid = ok (l : Int) ∧ mid ≤ l ∧ l ≤ fin ∧
      ∀ k x, arr[k]? = some x → mid ≤ k → k < l → x = pivot := by
  intro f
  induction f with
  | zero => intro mid h1 h3; omega
  | succ f ih =>
    intro mid h1 h3
    unfold skipUp
    by_cases hl : mid < fin
    · rw [if_pos (by omega), rd_nat_ok (by omega), bind_ok]
      split
      · rename_i hx
        obtain ⟨l, g1, g2, g3, g4⟩ := ih (mid + 1) (by omega) (by omega)
        refine ⟨l, by rw [show (mid : Int) + 1 = ((mid + 1 : Nat) : Int) by omega]; exact g1, by omega, g3, ?_⟩
        intro k x hk k1 k2
        by_cases hkl : k = mid
        · subst hkl
          obtain ⟨_, rfl⟩ := List.getElem?_eq_some_iff.mp hk
          exact hx
        · exact g4 k x hk (by omega) k2
      · exact ⟨mid, rfl, Nat.le_refl _, h1, fun k x _ k1 k2 => by omega⟩
    · rw [if_neg (by omega)]
      exact ⟨mid, rfl, Nat.le_refl _, h1, fun k x _ k1 k2 => by omega⟩

omit [DecidableEq α] in
/-- A permutation that changes only one range permutes that range. -/
theorem perm_segment {arr arr' : List α} {b e : Nat} (hp : arr'.Perm arr)
    (ho : ∀ k, k < b ∨ e ≤ k → arr'[k]? = arr[k]?) (hbe : b ≤ e) :
    ((arr'.drop b).take (e - b)).Perm ((arr.drop b).take (e - b)) := by
  have hsplit : ∀ l : List α, l = l.take b ++ ((l.drop b).take (e - b) ++ l.drop e) := by
    intro l
    have h1 : (l.drop b).drop (e - b) = l.drop e := by rw [List.drop_drop]; congr 1; omega
    rw [← h1, List.take_append_drop, List.take_append_drop]
  have h1 : arr'.take b = arr.take b := by
    apply List.ext_getElem?
    intro k
    rw [List.getElem?_take, List.getElem?_take]
    split
    · exact ho k (.inl (by assumption))
    · rfl
  have h2 : arr'.drop e = arr.drop e := by
    apply List.ext_getElem?
    intro k
    rw [List.getElem?_drop, List.getElem?_drop]
    exact ho _ (.inr (by omega))
  rw [hsplit arr', hsplit arr, h1, h2] at hp
  exact (List.perm_append_right_iff _).mp ((List.perm_append_left_iff _).mp hp)

omit [DecidableEq α] in
theorem segment_from {arr arr' : List α} {b e : Nat} (hp : arr'.Perm arr)
    (ho : ∀ k, k < b ∨ e ≤ k → arr'[k]? = arr[k]?) {k : Nat} {x : α} (hk : arr'[k]? = some x)
    (h1 : b ≤ k) (h2 : k < e) : ∃ k', b ≤ k' ∧ k' < e ∧ arr[k']? = some x := by
  have hm : x ∈ (arr'.drop b).take (e - b) := by
    apply List.mem_of_getElem? (i := k - b)
    rw [List.getElem?_take, if_pos (by omega), List.getElem?_drop, show b + (k - b) = k by omega, hk]
  have := (perm_segment hp ho (by omega)).mem_iff.mp hm
  obtain ⟨j, hj⟩ := List.getElem?_of_mem this
  rw [List.getElem?_take] at hj
  split at hj
  · rename_i hj'
    rw [List.getElem?_drop] at hj
    exact ⟨b + j, by omega, by omega, hj⟩
  · simp at hj

namespace QuickState

/-- The range at one level of the stack. -/
def b (st : QuickState α) (k : Nat) : Nat := (st.beg[k]?.getD 0).toNat
def e (st : QuickState α) (k : Nat) : Nat := (st.fin[k]?.getD 0).toNat

/-- How many levels there are. -/
def depth (st : QuickState α) : Nat := (st.i + 1).toNat

/-- The steps that remain, at most. -/
def todo (st : QuickState α) : Nat := sumTo (fun k => 2 * (st.e k - st.b k) + 1) st.depth

/-- What every pass of the outer loop keeps. -/
structure Inv (le : α → α → Bool) (P : α → Prop) (maxlevels : Nat) (arr0 : List α) (st : QuickState α) : Prop where
  perm : st.arr.Perm arr0
  all : ∀ x ∈ arr0, P x
  begLen : st.beg.length = maxlevels
  finLen : st.fin.length = maxlevels
  lower : -1 ≤ st.i
  upper : st.i < maxlevels
  begVal : ∀ k, k < st.depth → st.beg[k]? = some (st.b k : Int)
  finVal : ∀ k, k < st.depth → st.fin[k]? = some (st.e k : Int)
  bounds : ∀ k, k < st.depth → st.b k ≤ st.e k ∧ st.e k ≤ arr0.length
  small : ∀ k, k < st.depth → (st.e k - st.b k) * 2 ^ k ≤ arr0.length
  disj : ∀ j k, j < k → k < st.depth → st.e j ≤ st.b k ∨ st.e k ≤ st.b j
  sorted : ∀ p q x y, p < q → st.arr[p]? = some x → st.arr[q]? = some y →
    (∀ k, k < st.depth → ¬ (st.b k ≤ p ∧ q < st.e k)) → le x y = true

/-- One range is split in two, the smaller one above the larger one. -/
theorem Inv.split {maxlevels : Nat} {arr0 : List α} {st st' : QuickState α} {d b1 e1 b2 e2 lo hi : Nat}
    (h : Inv le P maxlevels arr0 st) (hcmp : Compares P cmp le) (hd : st.i = (d : Int))
    (hd' : st'.i = ((d + 1 : Nat) : Int)) (hlev : d + 1 < maxlevels)
    (hbl : st'.beg.length = st.beg.length) (hfl : st'.fin.length = st.fin.length)
    (hb : ∀ k, k < d → st'.beg[k]? = st.beg[k]?) (he : ∀ k, k < d → st'.fin[k]? = st.fin[k]?)
    (hb1 : st'.beg[d]? = some (b1 : Int)) (he1 : st'.fin[d]? = some (e1 : Int))
    (hb2 : st'.beg[d + 1]? = some (b2 : Int)) (he2 : st'.fin[d + 1]? = some (e2 : Int))
    (hlo : st.b d ≤ lo) (hlh : lo < hi) (hhi : hi ≤ st.e d)
    (hcase : (b1 = st.b d ∧ e1 = lo ∧ b2 = hi ∧ e2 = st.e d ∧ st.e d - hi ≤ lo - st.b d) ∨
      (b1 = hi ∧ e1 = st.e d ∧ b2 = st.b d ∧ e2 = lo ∧ lo - st.b d ≤ st.e d - hi))
    (hperm : st'.arr.Perm st.arr) (hout : ∀ k, k < st.b d ∨ st.e d ≤ k → st'.arr[k]? = st.arr[k]?)
    {pivot : α} (hp : P pivot)
    (hleft : ∀ k x, st'.arr[k]? = some x → st.b d ≤ k → k < hi → le x pivot = true)
    (hright : ∀ k x, st'.arr[k]? = some x → lo ≤ k → k < st.e d → le pivot x = true) :
    Inv le P maxlevels arr0 st' ∧ st'.todo < st.todo := by
  have hdep : st.depth = d + 1 := by unfold depth; omega
  have hdep' : st'.depth = d + 2 := by unfold depth; omega
  have vb : ∀ k, k < d → st'.b k = st.b k := fun k hk => by unfold b; rw [hb k hk]
  have ve : ∀ k, k < d → st'.e k = st.e k := fun k hk => by unfold e; rw [he k hk]
  have vb1 : st'.b d = b1 := by unfold b; rw [hb1]; simp
  have ve1 : st'.e d = e1 := by unfold e; rw [he1]; simp
  have vb2 : st'.b (d + 1) = b2 := by unfold b; rw [hb2]; simp
  have ve2 : st'.e (d + 1) = e2 := by unfold e; rw [he2]; simp
  have hbd := h.bounds d (by omega)
  have hsm := h.small d (by omega)
  have hcases : ∀ k, k < d + 2 → k < d ∨ k = d ∨ k = d + 1 := by omega
  have hPx : ∀ {k : Nat} {x : α}, st.arr[k]? = some x → P x := fun hk =>
    h.all _ (h.perm.mem_iff.mp (List.mem_of_getElem? hk))
  have hPx' : ∀ {k : Nat} {x : α}, st'.arr[k]? = some x → P x := fun hk =>
    h.all _ (h.perm.mem_iff.mp (hperm.mem_iff.mp (List.mem_of_getElem? hk)))
  constructor
  · refine ⟨hperm.trans h.perm, h.all, by rw [hbl, h.begLen], by rw [hfl, h.finLen], by omega, by omega,
      ?_, ?_, ?_, ?_, ?_, ?_⟩
    · intro k hk
      rw [hdep'] at hk
      rcases hcases k hk with hk | rfl | rfl
      · rw [vb k hk, hb k hk]; exact h.begVal k (by omega)
      · rw [vb1]; exact hb1
      · rw [vb2]; exact hb2
    · intro k hk
      rw [hdep'] at hk
      rcases hcases k hk with hk | rfl | rfl
      · rw [ve k hk, he k hk]; exact h.finVal k (by omega)
      · rw [ve1]; exact he1
      · rw [ve2]; exact he2
    · intro k hk
      rw [hdep'] at hk
      rcases hcases k hk with hk | rfl | rfl
      · rw [vb k hk, ve k hk]; exact h.bounds k (by omega)
      · rw [vb1, ve1]; omega
      · rw [vb2, ve2]; omega
    · intro k hk
      rw [hdep'] at hk
      rcases hcases k hk with hk | rfl | rfl
      · rw [vb k hk, ve k hk]; exact h.small k (by omega)
      · rw [vb1, ve1]
        refine le_trans (Nat.mul_le_mul_right _ ?_) hsm
        omega
      · rw [vb2, ve2, Nat.pow_succ, show (e2 - b2) * (2 ^ d * 2) = (2 * (e2 - b2)) * 2 ^ d by
          rw [Nat.mul_comm (2 ^ d) 2, ← Nat.mul_assoc, Nat.mul_comm (e2 - b2) 2]]
        refine le_trans (Nat.mul_le_mul_right _ ?_) hsm
        omega
    · intro j k hjk hk
      rw [hdep'] at hk
      rcases hcases k hk with hk | rfl | rfl
      · rw [vb k hk, ve k hk, vb j (by omega), ve j (by omega)]; exact h.disj j k hjk (by omega)
      · have := h.disj j k hjk (by omega)
        rw [vb1, ve1, vb j (by omega), ve j (by omega)]; omega
      · rcases hcases j (by omega) with hj | rfl | rfl
        · have := h.disj j d hj (by omega)
          rw [vb2, ve2, vb j (by omega), ve j (by omega)]; omega
        · rw [vb1, ve1, vb2, ve2]; omega
        · omega
    · intro p q x y hpq hx hy hno
      rw [hdep'] at hno
      have n1 := hno d (by omega)
      have n2 := hno (d + 1) (by omega)
      rw [vb1, ve1] at n1
      rw [vb2, ve2] at n2
      have hno' : ∀ k, k < d → ¬ (st.b k ≤ p ∧ q < st.e k) := by
        intro k hk
        have := hno k (by omega)
        rwa [vb k hk, ve k hk] at this
      by_cases hin : st.b d ≤ p ∧ q < st.e d
      · -- both in the range that is split
        by_cases hph : p < hi
        · by_cases hql : lo ≤ q
          · exact hcmp.trans x pivot y (hPx' hx) hp (hPx' hy) (hleft p x hx hin.1 hph) (hright q y hy hql hin.2)
          · omega
        · omega
      · -- at most one of them is in the range
        have old : ∀ p' q', p' < q' → st.arr[p']? = some x → st.arr[q']? = some y →
            (∀ k, k < d → ¬ (st.b k ≤ p' ∧ q' < st.e k)) → ¬ (st.b d ≤ p' ∧ q' < st.e d) → le x y = true := by
          intro p' q' h1 h2 h3 h4 h5
          apply h.sorted p' q' x y h1 h2 h3
          intro k hk
          rw [hdep] at hk
          by_cases hkd : k = d
          · subst hkd; exact h5
          · exact h4 k (by omega)
        by_cases hpin : st.b d ≤ p ∧ p < st.e d
        · obtain ⟨p', q1, q2, q3⟩ := segment_from hperm hout hx hpin.1 hpin.2
          rw [hout q (by omega)] at hy
          refine old p' q (by omega) q3 hy ?_ (by omega)
          intro k hk
          have := h.disj k d hk (by omega)
          omega
        · by_cases hqin : st.b d ≤ q ∧ q < st.e d
          · obtain ⟨q', q1, q2, q3⟩ := segment_from hperm hout hy hqin.1 hqin.2
            rw [hout p (by omega)] at hx
            refine old p q' (by omega) hx q3 ?_ (by omega)
            intro k hk
            have := h.disj k d hk (by omega)
            omega
          · rw [hout p (by omega)] at hx
            rw [hout q (by omega)] at hy
            exact old p q hpq hx hy hno' (by omega)
  · unfold todo
    rw [hdep, hdep', sumTo_succ, sumTo_succ, sumTo_succ, sumTo_congr (n := d) (g := fun k => 2 * (st.e k - st.b k) + 1)
      (fun k hk => by rw [vb k hk, ve k hk]), vb1, ve1, vb2, ve2]
    omega

theorem set_getElem?_ne {l : List β} {i j : Nat} {x : β} (h : i ≠ j) : (l.set i x)[j]? = l[j]? :=
  List.getElem?_set_ne h

theorem Inv.step {maxlevels : Nat} {arr0 : List α} {st : QuickState α}
    (h : Inv le P maxlevels arr0 st) (hcmp : Compares P cmp le) (hn : arr0.length < 2 ^ maxlevels)
    (hi : 0 ≤ st.i) :
    ∃ st', quickStep cmp maxlevels st = ok st' ∧ Inv le P maxlevels arr0 st' ∧ st'.todo < st.todo := by
  obtain ⟨d, hd⟩ := Int.eq_ofNat_of_zero_le hi
  have hdep : st.depth = d + 1 := by unfold depth; omega
  have hup := h.upper
  have hbl := h.begLen
  have hfl := h.finLen
  have hlen : st.arr.length = arr0.length := h.perm.length_eq
  obtain ⟨hbd1, hbd2⟩ := h.bounds d (by omega)
  have hbv := h.begVal d (by omega)
  have hfv := h.finVal d (by omega)
  have rdb : rd st.beg st.i = ok (st.b d : Int) := by rw [hd]; exact rd_eq_ok.mpr ⟨by omega, by simpa using hbv⟩
  have rdf : rd st.fin st.i = ok (st.e d : Int) := by rw [hd]; exact rd_eq_ok.mpr ⟨by omega, by simpa using hfv⟩
  unfold quickStep
  rw [rdb, bind_ok, rdf, bind_ok]
  by_cases hsz : 1 < st.e d - st.b d
  · rw [if_pos (by omega)]
    simp only
    generalize hB : st.b d = B at *
    generalize hE : st.e d = E at *
    rw [show (B : Int) + ((E : Int) - (B : Int)) / 2 = ((B + (E - B) / 2 : Nat) : Int) by omega]
    generalize hM : B + (E - B) / 2 = M
    have hM1 : B < M := by omega
    have hM2 : M < E := by omega
    rw [rd_nat_ok (by omega), bind_ok, rd_nat_ok (by omega), bind_ok, wr_nat_ok (by omega), bind_ok]
    generalize hpiv : st.arr[M] = pivot
    generalize hfst : st.arr[B] = first
    have hpiv' : st.arr[M]? = some pivot := by rw [List.getElem?_eq_getElem (by omega), hpiv]
    have hfst' : st.arr[B]? = some first := by rw [List.getElem?_eq_getElem (by omega), hfst]
    have hP : ∀ x ∈ st.arr, P x := fun x hx => h.all x (h.perm.mem_iff.mp hx)
    have hpP : P pivot := hP _ (List.mem_of_getElem? hpiv')
    have hfP : P first := hP _ (List.mem_of_getElem? hfst')
    have hlev : d + 1 < maxlevels := by
      by_contra hc
      have hdm : d + 1 = maxlevels := by omega
      have hs := h.small d (by omega)
      rw [hB, hE] at hs
      have h2 : 2 * 2 ^ d ≤ (E - B) * 2 ^ d := Nat.mul_le_mul_right _ (by omega)
      rw [← hdm, Nat.pow_succ] at hn
      omega
    rw [if_neg (by omega), show (E : Int) - 1 = ((E - 1 : Nat) : Int) by omega]
    obtain ⟨arr', m, p1, p2, p3, p4, p5, p6, p7⟩ := partition_ok hcmp hpP (beg := B) (fin := E)
      ((st.arr.set M first).length + 1) (st.arr.set M first) B (E - 1) (Nat.le_refl _) (by omega) (by omega)
      (by simp; omega) (by simp; omega) ⟨by
        intro x hx
        rcases mem_set_of hx with h | h
        · exact hP x h
        · rw [h]; exact hfP, fun k x _ k1 k2 => by omega, fun k x _ k1 k2 => by omega⟩
    rw [p1, bind_ok]
    simp only
    rw [List.length_set] at p2
    rw [wr_nat_ok (by omega), bind_ok]
    have hperm : (arr'.set m pivot).Perm st.arr := by
      refine p5.trans ?_
      have := List.set_set_perm (as := st.arr) (i := M) (j := B) (by omega) (by omega)
      rw [hfst, hpiv] at this
      exact this
    have hout : ∀ k, k < B ∨ E ≤ k → (arr'.set m pivot)[k]? = st.arr[k]? := by
      intro k hk
      rw [set_getElem?_ne (by omega), p6 k hk, set_getElem?_ne (by omega)]
    have hlref : le pivot pivot = true := by
      rcases hcmp.total pivot pivot hpP hpP with h | h <;> exact h
    have hself : (arr'.set m pivot)[m]? = some pivot := List.getElem?_set_self (by omega)
    have hL : ∀ k x, (arr'.set m pivot)[k]? = some x → B ≤ k → k ≤ m → le x pivot = true := by
      intro k x hk k1 k2
      by_cases hkm : k = m
      · subst hkm; rw [hself] at hk; injection hk with hk; rw [← hk]; exact hlref
      · rw [set_getElem?_ne (by omega)] at hk
        exact p7.left k x hk k1 (by omega)
    have hR : ∀ k x, (arr'.set m pivot)[k]? = some x → m ≤ k → k < E → le pivot x = true := by
      intro k x hk k1 k2
      by_cases hkm : k = m
      · subst hkm; rw [hself] at hk; injection hk with hk; rw [← hk]; exact hlref
      · rw [set_getElem?_ne (by omega)] at hk
        exact p7.right k x hk (by omega) k2
    generalize harr : arr'.set m pivot = arr'' at *
    have hlen' : arr''.length = arr0.length := by rw [hperm.length_eq, hlen]
    obtain ⟨lo, l1, l2, l3, l4⟩ := skipDown_ok (arr := arr'') (pivot := pivot) (beg := B) (arr''.length + 1) m p3
      (by omega) (by omega)
    obtain ⟨hi', u1, u2, u3, u4⟩ := skipUp_ok (arr := arr'') (pivot := pivot) (fin := E) (by omega)
      (arr''.length + 1) (m + 1) (by omega) (by omega)
    rw [l1, bind_ok, show (m : Int) + 1 = ((m + 1 : Nat) : Int) by omega, u1, bind_ok]
    have hleft : ∀ k x, arr''[k]? = some x → B ≤ k → k < hi' → le x pivot = true := by
      intro k x hk k1 k2
      by_cases hkm : k ≤ m
      · exact hL k x hk k1 hkm
      · rw [u4 k x hk (by omega) k2]; exact hlref
    have hright : ∀ k x, arr''[k]? = some x → lo ≤ k → k < E → le pivot x = true := by
      intro k x hk k1 k2
      by_cases hkm : m ≤ k
      · exact hR k x hk hkm k2
      · rw [l4 k x hk k1 (by omega)]; exact hlref
    rw [hd, show ((d : Int) + 1) = ((d + 1 : Nat) : Int) by omega]
    by_cases hcase : lo - B > E - hi'
    · rw [if_pos (by omega), wr_nat_ok (by omega), bind_ok, wr_nat_ok (by omega), bind_ok,
        wr_nat_ok (by simp; omega), bind_ok]
      refine ⟨_, rfl, ?_⟩
      refine Inv.split (d := d) (b1 := B) (e1 := lo) (b2 := hi') (e2 := E) (lo := lo) (hi := hi') h hcmp hd rfl hlev
        (by simp) (by simp) (fun k hk => set_getElem?_ne (by omega))
        (fun k hk => by rw [set_getElem?_ne (by omega), set_getElem?_ne (by omega)]) ?_ ?_ ?_ ?_
        (by omega) (by omega) (by omega) (by omega) hperm (by rw [hB, hE]; exact hout) hpP (by rw [hB]; exact hleft)
        (by rw [hE]; exact hright)
      · simp only; rw [set_getElem?_ne (by omega), hbv]
      · simp only; rw [List.getElem?_set_self (by simp; omega)]
      · simp only; rw [List.getElem?_set_self (by omega)]
      · simp only; rw [set_getElem?_ne (by omega), List.getElem?_set_self (by omega)]
    · rw [if_neg (by omega), wr_nat_ok (by omega), bind_ok, wr_nat_ok (by omega), bind_ok,
        wr_nat_ok (by simp; omega), bind_ok]
      refine ⟨_, rfl, ?_⟩
      refine Inv.split (d := d) (b1 := hi') (e1 := E) (b2 := B) (e2 := lo) (lo := lo) (hi := hi') h hcmp hd rfl hlev
        (by simp) (by simp) (fun k hk => by rw [set_getElem?_ne (by omega), set_getElem?_ne (by omega)])
        (fun k hk => set_getElem?_ne (by omega)) ?_ ?_ ?_ ?_
        (by omega) (by omega) (by omega) (by omega) hperm (by rw [hB, hE]; exact hout) hpP (by rw [hB]; exact hleft)
        (by rw [hE]; exact hright)
      · simp only; rw [List.getElem?_set_self (by simp; omega)]
      · simp only; rw [set_getElem?_ne (by omega), hfv]
      · simp only; rw [set_getElem?_ne (by omega), List.getElem?_set_self (by omega)]
      · simp only; rw [List.getElem?_set_self (by omega)]
  · rw [if_neg (by omega)]
    refine ⟨_, rfl, ?_, ?_⟩
    · have hdep' : (QuickState.mk st.arr st.beg st.fin (st.i - 1)).depth = d := by unfold depth; simp only; omega
      refine ⟨h.perm, h.all, h.begLen, h.finLen, by simp only; omega, by simp only; omega, ?_, ?_, ?_, ?_, ?_, ?_⟩
      · intro k hk; rw [hdep'] at hk; exact h.begVal k (by omega)
      · intro k hk; rw [hdep'] at hk; exact h.finVal k (by omega)
      · intro k hk; rw [hdep'] at hk; exact h.bounds k (by omega)
      · intro k hk; rw [hdep'] at hk; exact h.small k (by omega)
      · intro j k hjk hk; rw [hdep'] at hk; exact h.disj j k hjk (by omega)
      · intro p q x y hpq hx hy hno
        rw [hdep'] at hno
        apply h.sorted p q x y hpq hx hy
        intro k hk
        rw [hdep] at hk
        by_cases hkd : k = d
        · subst hkd; omega
        · exact hno k (by omega)
    · unfold todo
      have hdep' : (QuickState.mk st.arr st.beg st.fin (st.i - 1)).depth = d := by unfold depth; simp only; omega
      rw [hdep', hdep, sumTo_succ]
      have : sumTo (fun k => 2 * ((QuickState.mk st.arr st.beg st.fin (st.i - 1)).e k
          - (QuickState.mk st.arr st.beg st.fin (st.i - 1)).b k) + 1) d
          = sumTo (fun k => 2 * (st.e k - st.b k) + 1) d := rfl
      omega

end QuickState

/-- `quick_sort` gives a sorted permutation, if the stacks are large enough. -/
theorem quick_sort_ok (hcmp : Compares P cmp le) {maxlevels : Nat} {tmpbeg tmpend : List Int}
    (hb : tmpbeg.length = maxlevels) (hf : tmpend.length = maxlevels) (hm : 0 < maxlevels) {arr : List α}
    (hP : ∀ x ∈ arr, P x) (hn : arr.length < 2 ^ maxlevels) :
    ∃ out, quick_sort cmp maxlevels tmpbeg tmpend arr = ok out ∧ out.Perm arr ∧
      out.Pairwise (fun x y => le x y = true) := by
  unfold quick_sort
  rw [wr_ok (by omega) (by omega), bind_ok, wr_ok (by omega) (by omega), bind_ok]
  simp only [Int.toNat_zero]
  have hb0 : (tmpbeg.set 0 0)[0]? = some 0 := List.getElem?_set_self (by omega)
  have hf0 : (tmpend.set 0 (arr.length : Int))[0]? = some (arr.length : Int) := List.getElem?_set_self (by omega)
  have hinit : QuickState.Inv le P maxlevels arr ⟨arr, tmpbeg.set 0 0, tmpend.set 0 (arr.length : Int), 0⟩ := by
    refine ⟨List.Perm.refl _, hP, by simpa using hb, by simpa using hf, by simp, by simpa using hm, ?_, ?_, ?_, ?_, ?_, ?_⟩
    all_goals simp only [QuickState.depth, QuickState.b, QuickState.e]
    · intro k hk
      have : k = 0 := by omega
      subst this; rw [hb0]; simp
    · intro k hk
      have : k = 0 := by omega
      subst this; rw [hf0]; simp
    · intro k hk
      have : k = 0 := by omega
      subst this; rw [hb0, hf0]; simp
    · intro k hk
      have : k = 0 := by omega
      subst this; rw [hb0, hf0]; simp
    · intro j k hjk hk; omega
    · intro p q x y hpq hx hy hno
      have := hno 0 (by omega)
      rw [hb0, hf0] at this
      obtain ⟨h1, _⟩ := List.getElem?_eq_some_iff.mp hy
      simp at this; omega
  obtain ⟨st, s1, s2, s3⟩ := whileF_ok (I := QuickState.Inv le P maxlevels arr) (μ := QuickState.todo)
    (cond := fun st => decide (st.i ≥ 0)) (body := quickStep cmp maxlevels)
    (fun s hs hc => hs.step hcmp hn (by simpa using hc)) (2 * arr.length + 1) _ hinit (by
      unfold QuickState.todo QuickState.depth
      simp only [show ((0 : Int) + 1).toNat = 0 + 1 from rfl, sumTo_succ, sumTo_zero, QuickState.b, QuickState.e, hb0, hf0]
      simp)
  rw [s1, bind_ok]
  refine ⟨_, rfl, s2.perm, ?_⟩
  rw [List.pairwise_iff_getElem]
  intro i j hi hj hij
  refine s2.sorted i j _ _ hij (List.getElem?_eq_getElem hi) (List.getElem?_eq_getElem hj) ?_
  intro k hk
  have h1 : ¬ st.i ≥ 0 := by simpa using s3
  have := s2.lower
  unfold QuickState.depth at hk
  omega

end Awk
