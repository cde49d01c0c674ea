import Verif.Lemmas.GetitemList
/-
`getitem_next` applies a slice level by level.
-/

namespace Awk
open R Spec

namespace Content

/-! ### Fuel -/

mutual
/-- Height of the part of the tree above the first lists, not counting IndexedArrays and
UnmaskedArrays: what a lazy `carry` does not change. -/
def hgt : Content → Nat
  | empty _ => 1
  | numpy _ _ _ => 1
  | regular _ _ _ _ => 1
  | listArray _ _ _ _ => 1
  | listOffset _ _ _ => 1
  | indexed _ _ c => c.hgt
  | indexedOption _ _ c => c.hgt + 1
  | byteMasked _ _ _ c => c.hgt + 1
  | bitMasked _ _ _ _ _ c => c.hgt + 1
  | unmasked _ c => c.hgt
  | record _ _ cs _ => hgtAll cs + 1
  | union _ _ _ cs => hgtAll cs + 1
/-- The largest `hgt` of the members. -/
def hgtAll : List Content → Nat
  | [] => 0
  | c :: cs => max c.hgt (hgtAll cs)
end

theorem hgtAll_le {cs : List Content} {n : Nat} : hgtAll cs ≤ n ↔ ∀ c ∈ cs, c.hgt ≤ n := by
  induction cs with
  | nil => simp [hgtAll]
  | cons c cs ih => simp [hgtAll, ih]

theorem hgt_le_rank (c : Content) : c.hgt ≤ c.rank := by
  induction c using induct with
  | record p keys cs length ih =>
    simp only [hgt, rank]
    have : hgtAll cs ≤ rankAll cs := hgtAll_le.mpr (fun c hc => by
      have h1 := ih c hc
      have h2 := child_rank (c := record p keys cs length) (d := c) (by simpa [children] using hc)
      simp only [rank] at h2; omega)
    omega
  | union p tags index cs ih =>
    simp only [hgt, rank]
    have : hgtAll cs ≤ rankAll cs := hgtAll_le.mpr (fun c hc => by
      have h1 := ih c hc
      have h2 := child_rank (c := union p tags index cs) (d := c) (by simpa [children] using hc)
      simp only [rank] at h2; omega)
    omega
  | _ => simp only [hgt, rank]; omega

theorem hgt_closed : Closed (fun (n : Nat) c => hgt c ≤ n) where
  lazy _ h := h
  node := by
    intro c' c hcls hloc hd n h
    have hall : ∀ {cs' cs : List Content} {n : Nat}, (∀ d' ∈ cs', ∃ d ∈ cs, ∀ a, hgt d ≤ a → hgt d' ≤ a) →
        hgtAll cs ≤ n → hgtAll cs' ≤ n := by
      intro cs' cs n hd h
      refine hgtAll_le.mpr (fun d' hd' => ?_)
      obtain ⟨d, h1, h2⟩ := hd d' hd'
      exact h2 n (hgtAll_le.mp h d h1)
    cases c <;> cases c' <;> simp only [cls] at hcls <;> (try omega) <;>
      simp only [hgt, children, List.mem_singleton, forall_eq, exists_eq_left] at h hd ⊢ <;>
      (try exact h) <;> (try exact hd _ h)
    case record.record =>
      have := hall hd (n := n - 1) (by omega)
      omega
    case union.union =>
      have := hall hd (n := n - 1) (by omega)
      omega
    all_goals
      have := hd (n - 1) (by omega)
      omega

theorem carry_hgt {c c' : Content} (hc : c.Good) {lazy : Bool} {idx : List Int}
    (hi : InRange idx c.len) (h : c.carry lazy idx = ok c') : c'.hgt ≤ c.hgt :=
  carry_closed hgt_closed hc hi h _ (Nat.le_refl _)

/-! ### List nodes -/

/-- How an item changes the mode, on a node of `n` lists. -/
def StepMode (mode : Mode) (it : SliceItem) (mode' : Mode) (n : Nat) : Prop :=
  nextMode mode it = some mode' ∨
    (mode = .none ∧ mode' = .ident ∧ n = 1 ∧ ∃ shape flat, it = .array shape flat)

section
variable {me c : Content} {p : Params} {n m : Nat} {rest : List SliceItem} {h : Prop}
  {J : Nat → Option Nat} {mode mode' : Mode} {adv : Adv} {it : SliceItem}

theorem isFirst_some {a : List Int} (h : Adv.isFirst (some a) = true) : a = [] := by
  simpa [Adv.isFirst] using h

theorem alloc_mul (a b : Nat) : (alloc ((a : Int) * (b : Int))).length = a * b := by
  rw [alloc, List.length_replicate, ← Nat.cast_mul, Int.toNat_natCast]

theorem sumTo_zero (f : Nat → Nat) : sumTo f 0 = 0 := rfl

theorem Jn_of_adv (hadv : AdvOk m mode adv J n) (hne : mode ≠ .none) :
    ∃ Jn : Nat → Nat, ∀ i, i < n → J i = some (Jn i) := by
  have : ∀ i, i < n → ∃ j, J i = some j := by
    intro i hi
    cases mode with
    | none => exact absurd rfl hne
    | ident => obtain ⟨_, _, _, h⟩ := hadv; exact ⟨_, (h i hi).2.1⟩
    | some => obtain ⟨_, _, _, h⟩ := hadv; obtain ⟨j, _, _, h⟩ := h i hi; exact ⟨j, h⟩
    | junk => obtain ⟨_, _, _, h⟩ := hadv; exact h i hi
  refine ⟨fun i => (J i).getD 0, fun i hi => ?_⟩
  obtain ⟨j, hj⟩ := this i hi
  simp only [hj, Option.getD_some]

/-- The buffer that zips index arrays, where another array may be zipped. -/
theorem Jn_of_zip (hadv : AdvOk m mode adv J n) (hne : mode ≠ .none) (hj : mode ≠ .junk)
    {Jn : Nat → Nat} (hJ : ∀ i, i < n → J i = some (Jn i)) :
    ∃ a, adv = some a ∧ ∀ i, i < n → a[i]? = some (Jn i : Int) ∧ Jn i < m := by
  cases mode with
  | none => exact absurd rfl hne
  | junk => exact absurd rfl hj
  | ident =>
    obtain ⟨a, h1, _, h⟩ := hadv
    refine ⟨a, h1, fun i hi => ?_⟩
    obtain ⟨h2, h3, h4⟩ := h i hi
    rw [hJ i hi, Option.some.injEq] at h3
    rw [h3]; exact ⟨h2, h4⟩
  | some =>
    obtain ⟨a, h1, _, h⟩ := hadv
    refine ⟨a, h1, fun i hi => ?_⟩
    obtain ⟨j, h2, h3, h4⟩ := h i hi
    rw [hJ i hi, Option.some.injEq] at h4
    rw [h4]; exact ⟨h3, h2⟩

theorem listNext_tot {starts stops : List Int}
    (L : Lists me c p n (fun i => starts[i]?.getD 0) (pairLen starts stops))
    (hn : n ≤ starts.length) (hn' : n ≤ stops.length)
    (hp : ∀ i (h : i < n), GoodPair starts[i] stops[i] c.len) (hk : NextOk m rest)
    (hadv : AdvOk m mode adv J n) (hit : it ≠ .newaxis) (hi : ItemOk m it)
    (hm : nextMode mode it = some mode') (hf : Fits false m mode' rest c)
    (hft : h → Fits true m mode' rest c)
    (hsel : h → ∀ i, i < n → (select (it :: rest) (J i) (me.valD i)).isSome) :
    (listNext it (next rest) adv p starts stops n c).Tot h
      (fun out => Sel n out (fun i => select (it :: rest) (J i) (me.valD i))) := by
  have hselL : h → ∀ i, i < n → (selList (wrapList p) (select rest) (J i)
      (c.seg ((fun i => starts[i]?.getD 0) i).toNat (pairLen starts stops i)) it).isSome := by
    intro hh i hi
    have := hsel hh i hi
    rwa [L.select_eq hit _ hi] at this
  cases it with
  | newaxis => exact absurd rfl hit
  | «at» a =>
    have : mode = .none ∧ mode' = .none := by
      cases mode <;> simp [nextMode] at hm
      exact ⟨rfl, hm.symm⟩
    obtain ⟨rfl, rfl⟩ := this
    obtain ⟨rfl, hJ⟩ := hadv
    simp only [listNext]
    unfold listAt
    refine list_at L hk (ListArray_getitem_next_at_tot hn hn' (fun i hi => (hp i hi).le)
      (by simp [alloc]) ?_) hf hft hJ hsel
    intro hh i hi
    have := hselL hh i hi
    simp only [selList] at this
    cases hg : pyGet? (c.seg (starts[i]?.getD 0).toNat (pairLen starts stops i)) a with
    | none => rw [hg] at this; simp at this
    | some v =>
      have := regAt_of_pyGet (by rw [hg]; rfl)
      rwa [seg_length] at this
  | range start stop step =>
    obtain ⟨h1, h2, hs, _⟩ := hi
    simp only [listNext]
    unfold listRange
    set f : Nat → Nat := fun i => (rangePos start stop step (pairLen starts stops i)).length with hfe
    rw [ListArray_getitem_next_range_carrylength_ok h1 h2 hs hn hn' (fun i hi => (hp i hi).le),
      bind_ok, ListArray_getitem_next_range_ok h1 h2 hs hn hn' (fun i hi => (hp i hi).le)
        (by simp [alloc]) (by simp [alloc]), bind_ok]
    have hna : (if adv.isFirst then ok adv
        else ListArray_getitem_next_range_counts (offsTo f n) n >>= fun total =>
          ListArray_getitem_next_range_spreadadvanced (alloc total) (adv.getD []) (offsTo f n) n
            >>= fun a => ok (some a))
        = ok (adv.map (fun a => spread f (fun i => a[i]?.getD 0) n)) := by
      cases adv with
      | none => rfl
      | some a =>
        have hlen := hadv.len
        by_cases ha : Adv.isFirst (some a) = true
        · rw [if_pos ha]
          have := isFirst_some ha
          subst this
          have : n = 0 := by simpa using hlen
          subst this
          rfl
        · rw [if_neg ha, ListArray_getitem_next_range_counts_ok, bind_ok,
            ListArray_getitem_next_range_spreadadvanced_ok (by simp [alloc]) (by simpa using hlen),
            bind_ok]
          rfl
    dsimp only
    rw [hna]
    simp only [bind_ok]
    rw [← R.bind_assoc]
    refine (list_range (J := J) L hk hadv hs hm hf hft hsel hfe).bind (fun out ho => .ok ?_)
    obtain ⟨g1, g2, g3⟩ := ho
    refine ⟨good_offsTo g1 g2, by simp [len], ?_⟩
    intro i hi
    rw [g3 i hi, valD_offsTo g1 g2 hi]
  | array shape flat =>
    obtain ⟨hfl, hsh, hm0⟩ := hi
    simp only [listNext]
    unfold listArrayItem
    -- the success of the first array
    have hreg : h → mode = .none → ∀ i, i < n → ∀ j (hj : j < flat.length),
        (regAt flat[j] (pairLen starts stops i)).isSome := by
      rintro hh rfl i hi j hj
      have := hselL hh i hi
      rw [hadv.2 i hi] at this
      simp only [selList, Option.isSome_map] at this
      have := mapM_isSome this j (List.mem_range.mpr hj)
      rw [List.getElem?_eq_getElem hj, Option.bind_some] at this
      cases hg : pyGet? (c.seg (starts[i]?.getD 0).toNat (pairLen starts stops i)) flat[j] with
      | none => rw [hg] at this; simp at this
      | some v =>
        have := regAt_of_pyGet (by rw [hg]; rfl)
        rwa [seg_length] at this
    by_cases hmode : mode = .none
    · subst hmode
      obtain ⟨rfl, hJ⟩ := hadv
      simp only [nextMode, Option.some.injEq] at hm
      subst hm
      rw [if_pos (show Adv.isFirst none = true from rfl)]
      refine list_first L hk ⟨hfl, hsh, hm0⟩ hJ (.inl rfl)
        (ListArray_getitem_next_array_tot hn hn' hp (by rw [alloc_mul])
          (by rw [alloc_mul]) (fun hh => hreg hh rfl)) hf hft hsel
    · obtain ⟨Jn, hJn⟩ := Jn_of_adv hadv hmode
      have hjunk : mode ≠ .junk := by
        rintro rfl; simp [nextMode] at hm
      obtain ⟨a, rfl, ha⟩ := Jn_of_zip hadv hmode hjunk hJn
      by_cases hfirst : Adv.isFirst (some a) = true
      · have hae := isFirst_some hfirst
        have hn0 : n = 0 := by have := hadv.len; rw [hae] at this; simpa using this
        subst hn0
        rw [if_pos hfirst]
        have hid : ∀ x : R Content, (x >>= fun out =>
            ok (if Option.isNone (some a) then arrayWrap out 0 shape else out)) = x := by
          intro x; cases x <;> rfl
        simp only [hid]
        refine list_advanced (J := J) L hk hadv hJn hm hmode
          ((ListArray_getitem_next_array_tot hn hn' hp (by simp [alloc]) (by simp [alloc])
            (fun _ i hi => by omega)).mono (fun hh => hh) ?_) hf hft hsel
        rintro ca ⟨g1, g2, _, _⟩
        rw [Nat.zero_mul] at g1 g2
        exact ⟨g1, g2, fun i hi => by omega, fun i hi => by omega⟩
      · rw [if_neg hfirst]
        refine list_advanced (J := J) L hk hadv hJn hm hmode
          (ListArray_getitem_next_array_advanced_tot (J := Jn) hn hn' hp (by simp [alloc])
            (by simp [alloc]) (fun i hi => by rw [hfl]; exact ha i hi) ?_) hf hft hsel
        intro hh i hi
        have := hselL hh i hi
        rw [hJn i hi] at this
        simp only [selList] at this
        cases hfj : flat[Jn i]? with
        | none => rw [hfj] at this; simp at this
        | some a =>
          rw [hfj] at this
          simp only [Option.bind_some] at this ⊢
          cases hg : pyGet? (c.seg (starts[i]?.getD 0).toNat (pairLen starts stops i)) a with
          | none => rw [hg] at this; simp at this
          | some v =>
            have := regAt_of_pyGet (by rw [hg]; rfl)
            rwa [seg_length] at this

theorem regularNext_tot {size : Nat}
    (L : Lists me c p n (fun i => ((i * size : Nat) : Int)) (fun _ => size)) (hk : NextOk m rest)
    (hadv : AdvOk m mode adv J n) (hit : it ≠ .newaxis) (hi : ItemOk m it)
    (hm : StepMode mode it mode' n) (hf : Fits false m mode' rest c)
    (hsize : h → SizeOk it size) (hft : h → Fits true m mode' rest c)
    (hsel : h → ∀ i, i < n → (select (it :: rest) (J i) (me.valD i)).isSome) :
    (regularNext it (next rest) adv p c size n).Tot h
      (fun out => Sel n out (fun i => select (it :: rest) (J i) (me.valD i))) := by
  cases it with
  | newaxis => exact absurd rfl hit
  | «at» a =>
    have hm := hm.resolve_right (by rintro ⟨_, _, _, _, _, h⟩; cases h)
    have : mode = .none ∧ mode' = .none := by
      cases mode <;> simp [nextMode] at hm
      exact ⟨rfl, hm.symm⟩
    obtain ⟨rfl, rfl⟩ := this
    obtain ⟨rfl, hJ⟩ := hadv
    simp only [regularNext]
    unfold regularAt
    exact list_at L hk (RegularArray_getitem_next_at_tot (by simp [alloc]) hsize) hf hft hJ hsel
  | range start stop step =>
    have hm := hm.resolve_right (by rintro ⟨_, _, _, _, _, h⟩; cases h)
    obtain ⟨h1, h2, hs, _⟩ := hi
    simp only [regularNext]
    unfold regularRange
    rw [regular_range_carry_ok h1 h2 hs, bind_ok]
    set f : Nat → Nat := fun _ => (rangePos start stop step size).length with hfe
    have hna : (if adv.isFirst then ok adv
        else RegularArray_getitem_next_range_spreadadvanced
          (alloc (n * ((rangePos start stop step size).length : Int))) (adv.getD []) n
          ((rangePos start stop step size).length : Int).toNat >>= fun a => ok (some a))
        = ok (adv.map (fun a => spread f (fun i => a[i]?.getD 0) n)) := by
      cases adv with
      | none => rfl
      | some a =>
        have hlen := hadv.len
        by_cases ha : Adv.isFirst (some a) = true
        · rw [if_pos ha]
          have := isFirst_some ha
          subst this
          have : n = 0 := by simpa using hlen
          subst this
          rfl
        · rw [if_neg ha, Int.toNat_natCast, RegularArray_getitem_next_range_spreadadvanced_ok
            (by rw [alloc_mul]) (by simpa using hlen), bind_ok]
          rfl
    dsimp only
    rw [hna]
    simp only [bind_ok]
    rw [← R.bind_assoc]
    refine (list_range (J := J) L hk hadv hs hm hf hft hsel hfe).bind (fun out ho => .ok ?_)
    obtain ⟨g1, g2, g3⟩ := ho
    rw [Int.toNat_natCast]
    have hsum : ∀ i, sumTo f i = i * (rangePos start stop step size).length :=
      fun i => sumTo_const _ i
    rw [hsum] at g2
    have hl : n ≤ (regular p out (rangePos start stop step size).length n).len := by
      simp only [len]
      split
      · rename_i hz
        exact (Nat.le_div_iff_mul_le (by omega)).mpr g2
      · exact Nat.le_refl _
    refine ⟨good_regular.mpr g1, hl, ?_⟩
    intro i hi
    rw [g3 i hi, valD_regular g1 (by omega), hsum]
  | array shape flat =>
    obtain ⟨hfl, hsh, hm0⟩ := hi
    simp only [regularNext]
    unfold regularArray
    have hregz := RegularArray_getitem_next_array_regularize_tot (toarray := alloc flat.length)
      (flat := flat) (size := size) (h := h) (by simp [alloc])
      (fun hh j hj => hsize hh flat[j] (List.getElem_mem hj))
    refine hregz.bind (fun reg hreg => ?_)
    obtain ⟨hrl, hreg⟩ := hreg
    have hregj : ∀ j, j < flat.length → ∃ r, reg[j]? = some ((r : Nat) : Int) ∧
        (flat[j]?.bind (fun a => regAt a size)) = some r := by
      intro j hj
      obtain ⟨r, h1, h2⟩ := hreg j (by omega)
      exact ⟨r, by rw [List.getElem?_eq_getElem (by omega), h2], h1⟩
    have hfirstK : (RegularArray_getitem_next_array (alloc (n * flat.length))
        (alloc (n * flat.length)) reg n reg.length size).Tot h
        (fun ca => ca.1.length = n * flat.length ∧ ca.2.length = n * flat.length ∧
        (∀ i, i < n → ∀ j, j < flat.length → ∃ x, ca.1[i * flat.length + j]? = some x ∧
          ∃ r, (flat[j]?.bind (fun a => regAt a size)) = some r ∧
            x = ((i * size : Nat) : Int) + (r : Int)) ∧
        ∀ i, i < n → ∀ j, j < flat.length → ca.2[i * flat.length + j]? = some (j : Int)) := by
      have := RegularArray_getitem_next_array_ok (reg := reg)
        (tocarry := alloc (n * flat.length)) (toadv := alloc (n * flat.length)) (n := n)
        (size := size) (by rw [alloc_mul, hrl]) (by rw [alloc_mul, hrl])
      refine this.mono (fun _ => trivial) ?_
      rintro ca ⟨g1, g2, g3, g4⟩
      rw [hrl] at g1 g2 g3 g4
      refine ⟨g1, g2, ?_, g4⟩
      intro i hi j hj
      obtain ⟨x, e1, r', e2, e3⟩ := g3 i hi j hj
      obtain ⟨r, e4, e5⟩ := hregj j hj
      rw [e4, Option.some.injEq] at e2
      exact ⟨x, e1, r, e5, by rw [e3, ← e2]⟩
    by_cases hmode : mode = .none
    · subst hmode
      obtain ⟨rfl, hJ⟩ := hadv
      have hm' : mode' = .some ∨ (mode' = .ident ∧ n = 1) := by
        rcases hm with hm | ⟨_, h1, h2, _⟩
        · simp only [nextMode, Option.some.injEq] at hm
          exact .inl hm.symm
        · exact .inr ⟨h1, h2⟩
      rw [if_pos (show Adv.isFirst none = true from rfl)]
      exact list_first L hk ⟨hfl, hsh, hm0⟩ hJ hm' hfirstK hf hft hsel
    · have hm0' := hm.resolve_right (by rintro ⟨h, _⟩; exact hmode h)
      clear hm
      obtain ⟨Jn, hJn⟩ := Jn_of_adv hadv hmode
      have hjunk : mode ≠ .junk := by
        rintro rfl; simp [nextMode] at hm0'
      obtain ⟨a, rfl, ha⟩ := Jn_of_zip hadv hmode hjunk hJn
      by_cases hfirst : Adv.isFirst (some a) = true
      · have hae := isFirst_some hfirst
        have hn0 : n = 0 := by have := hadv.len; rw [hae] at this; simpa using this
        subst hn0
        rw [if_pos hfirst]
        have hid : ∀ x : R Content, (x >>= fun out =>
            ok (if Option.isNone (some a) then arrayWrap out 0 shape else out)) = x := by
          intro x; cases x <;> rfl
        simp only [hid]
        refine list_advanced (J := J) L hk hadv hJn hm0' hmode (hfirstK.mono (fun hh => hh) ?_)
          hf hft hsel
        rintro ca ⟨g1, g2, _, _⟩
        rw [Nat.zero_mul] at g1 g2
        exact ⟨g1, g2, fun i hi => by omega, fun i hi => by omega⟩
      · rw [if_neg hfirst]
        have hsz : size ≠ 0 := by
          rintro rfl
          obtain ⟨r, _, hr⟩ := hregj 0 (by omega)
          rw [List.getElem?_eq_getElem (by omega), Option.bind_some] at hr
          have := regAt_lt hr
          omega
        rw [if_neg hsz]
        refine list_advanced (J := J) L hk hadv hJn hm0' hmode
          ((RegularArray_getitem_next_array_advanced_ok (J := Jn) (by simp [alloc])
            (by simp [alloc]) (fun i hi => by rw [hrl, hfl]; exact ha i hi)).mono
            (fun _ => trivial) ?_) hf hft hsel
        rintro ca ⟨g1, g2, g3, g4⟩
        refine ⟨g1, g2, ?_, g4⟩
        intro i hi
        obtain ⟨r', e2, e3⟩ := g3 i hi
        obtain ⟨r, e4, e5⟩ := hregj (Jn i) (by rw [hfl]; exact (ha i (by omega)).2)
        rw [e4, Option.some.injEq] at e2
        exact ⟨r, e5, by rw [e3, ← e2]⟩

end
end Content
end Awk
