import Verif.Lemmas.Getitem
/-
One item of a slice on a list node, for RegularArray, ListArray and ListOffsetArray alike.
-/

namespace Awk
open R Spec

namespace Content

/-- `out` has at least `n` elements, and the first `n` show `S`. -/
structure Sel (n : Nat) (out : Content) (S : Nat → Option Val) : Prop where
  good : out.Good
  len_le : n ≤ out.len
  val : ∀ i, i < n → S i = some (out.valD i)

/-- The rest of the slice is applied correctly. -/
def NextOk (m : Nat) (rest : List SliceItem) : Prop :=
  ∀ (mode : Mode) (adv : Adv) (J : Nat → Option Nat) (c : Content), c.Good →
    Fits false m mode rest c → AdvOk m mode adv J c.len →
    (next rest adv c).Tot
      (Fits true m mode rest c ∧ ∀ i, i < c.len → (select rest (J i) (c.valD i)).isSome)
      (fun out => Sel c.len out (fun i => select rest (J i) (c.valD i)))

/-- The first `n` elements of `me` are the lists of `ln i` elements of `c` that begin at `sI i`. -/
structure Lists (me c : Content) (p : Params) (n : Nat) (sI : Nat → Int) (ln : Nat → Nat) :
    Prop where
  good : c.Good
  val : ∀ i, i < n → me.valD i = wrapList p (c.seg (sI i).toNat (ln i))
  bound : ∀ i, i < n → 0 < ln i → 0 ≤ sI i ∧ sI i + (ln i : Int) ≤ c.len

theorem carry_fits {c : Content} (hc : c.Good) (lazy : Bool) {idx : List Int}
    (hi : InRange idx c.len) :
    ∃ c', c.carry lazy idx = ok c' ∧ c'.Good ∧ c'.rank ≤ c.rank + lazy.toNat ∧ Picks c' c idx ∧
      (∀ {b m mode items}, Fits b m mode items c → Fits b m mode items c') := by
  obtain ⟨c', h1, h2, h3, h4⟩ := carry_good hc lazy hi
  exact ⟨c', h1, h2, h3, h4, fun {b m mode items} h =>
    carry_closed (Fits.closed b m) hc hi h1 (mode, items) h⟩

section
variable {me c : Content} {p : Params} {n m : Nat} {sI : Nat → Int} {ln : Nat → Nat}
  {rest : List SliceItem} {h : Prop} {J : Nat → Option Nat}

theorem Lists.select_eq (L : Lists me c p n sI ln) {it : SliceItem} (hn : it ≠ .newaxis)
    (adv : Option Nat) {i : Nat} (hi : i < n) :
    select (it :: rest) adv (me.valD i)
      = selList (wrapList p) (select rest) adv (c.seg (sI i).toNat (ln i)) it := by
  rw [select_cons hn, L.val i hi, selItem_wrapList]

theorem Lists.pyGet (L : Lists me c p n sI ln) {a : Int} {i : Nat} (hi : i < n) {r : Nat}
    (hr : regAt a (ln i) = some r) :
    pyGet? (c.seg (sI i).toNat (ln i)) a = some (c.valD (sI i + (r : Int)).toNat) ∧
      0 ≤ sI i + (r : Int) ∧ sI i + (r : Int) < c.len := by
  have hlt := regAt_lt hr
  obtain ⟨h1, h2⟩ := L.bound i hi (by omega)
  refine ⟨?_, by omega, by omega⟩
  rw [pyGet?_regAt, seg_length, hr]
  simp only [Option.bind_some, seg_getElem?]
  rw [if_pos hlt]
  congr 2
  omega

theorem regAt_of_pyGet {xs : List α} {a : Int} (h : (pyGet? xs a).isSome) :
    (regAt a xs.length).isSome := by
  rw [pyGet?_regAt] at h
  cases hr : regAt a xs.length with
  | none => rw [hr] at h; simp at h
  | some r => rfl

/-- Gathering one element of each list. -/
theorem Lists.pick (L : Lists me c p n sI ln) {A : Nat → Option Int} {xs : List Int}
    (hl : xs.length = n) (hx : ∀ i (h : i < xs.length), ∃ r,
      ((A i).bind (fun a => regAt a (ln i))) = some r ∧ xs[i] = sI i + (r : Int)) :
    ∃ c', c.carry true xs = ok c' ∧ c'.Good ∧ c'.len = n ∧
      (∀ {b m mode items}, Fits b m mode items c → Fits b m mode items c') ∧
      ∀ i, i < n → ((A i).bind (pyGet? (c.seg (sI i).toNat (ln i)))) = some (c'.valD i) := by
  have hx' : ∀ i (h : i < xs.length), ∃ a r, A i = some a ∧ regAt a (ln i) = some r ∧
      xs[i] = sI i + (r : Int) := by
    intro i hi
    obtain ⟨r, h1, h2⟩ := hx i hi
    cases ha : A i with
    | none => rw [ha] at h1; simp at h1
    | some a => rw [ha] at h1; exact ⟨a, r, rfl, h1, h2⟩
  have hin : InRange xs c.len := by
    intro j hj
    obtain ⟨i, hi, rfl⟩ := List.getElem_of_mem hj
    obtain ⟨a, r, _, h2, h3⟩ := hx' i hi
    obtain ⟨_, h4, h5⟩ := L.pyGet (by omega) h2
    omega
  obtain ⟨c', h1, h2, _, h3, h4⟩ := carry_fits L.good true hin
  refine ⟨c', h1, h2, by rw [h3.1, hl], h4, ?_⟩
  intro i hi
  obtain ⟨a, r, g1, g2, g3⟩ := hx' i (by omega)
  rw [g1]
  simp only [Option.bind_some]
  rw [(L.pyGet hi g2).1, h3.valD (by omega), g3]

/-- An integer. -/
theorem list_at (L : Lists me c p n sI ln) (hk : NextOk m rest) {a : Int} {K : R (List Int)}
    (hK : K.Tot h (fun xs => xs.length = n ∧ ∀ i (h : i < xs.length), ∃ r,
      regAt a (ln i) = some r ∧ xs[i] = sI i + (r : Int)))
    (hf : Fits false m .none rest c) (hft : h → Fits true m .none rest c)
    (hJ : ∀ i, i < n → J i = none)
    (hsel : h → ∀ i, i < n → (select (.at a :: rest) (J i) (me.valD i)).isSome) :
    (K >>= fun xs => c.carry true xs >>= fun nc => next rest none nc).Tot h
      (fun out => Sel n out (fun i => select (.at a :: rest) (J i) (me.valD i))) := by
  refine hK.bind (fun xs hx => ?_)
  obtain ⟨hl, hx⟩ := hx
  obtain ⟨c', h1, h2, h3, h4, h5⟩ := L.pick (A := fun _ => some a) hl (by simpa using hx)
  rw [h1, bind_ok]
  have key : ∀ i, i < n → select (.at a :: rest) (J i) (me.valD i)
      = select rest (J i) (c'.valD i) := by
    intro i hi
    rw [L.select_eq (by simp) _ hi]
    have := h5 i hi
    simp only [Option.bind_some] at this
    simp only [selList, this, Option.bind_some]
  refine (hk .none none J c' h2 (h4 hf) ⟨rfl, by rw [h3]; exact hJ⟩).mono ?_ ?_
  · intro hh
    refine ⟨h4 (hft hh), ?_⟩
    rw [h3]
    intro i hi
    rw [← key i hi]; exact hsel hh i hi
  · intro out ho
    rw [h3] at ho
    exact ⟨ho.good, ho.len_le, fun i hi => by rw [key i hi]; exact ho.val i hi⟩

/-- An index array zipped with the previous ones. -/
theorem list_advanced (L : Lists me c p n sI ln) (hk : NextOk m rest) {mode mode' : Mode}
    {adv : Adv} (hadv : AdvOk m mode adv J n) {shape : List Nat} {flat : List Int} {Jn : Nat → Nat}
    (hJ : ∀ i, i < n → J i = some (Jn i))
    (hm : nextMode mode (.array shape flat) = some mode') (hne : mode ≠ .none)
    {K : R (List Int × List Int)}
    (hK : K.Tot h (fun ca => ca.1.length = n ∧ ca.2.length = n ∧
      (∀ i (h : i < ca.1.length), ∃ r, (flat[Jn i]?.bind (fun a => regAt a (ln i))) = some r ∧
        ca.1[i] = sI i + (r : Int)) ∧ ∀ i, i < n → ca.2[i]? = some (i : Int)))
    (hf : Fits false m mode' rest c) (hft : h → Fits true m mode' rest c)
    (hsel : h → ∀ i, i < n → (select (.array shape flat :: rest) (J i) (me.valD i)).isSome) :
    (K >>= fun ca => c.carry true ca.1 >>= fun nc => next rest (some ca.2) nc).Tot h
      (fun out => Sel n out (fun i => select (.array shape flat :: rest) (J i) (me.valD i))) := by
  refine hK.bind (fun ca hx => ?_)
  obtain ⟨hl, hl', hx, ha⟩ := hx
  obtain ⟨c', h1, h2, h3, h4, h5⟩ := L.pick (A := fun i => flat[Jn i]?) hl hx
  rw [h1, bind_ok]
  have key : ∀ i, i < n → select (.array shape flat :: rest) (J i) (me.valD i)
      = select rest (J i) (c'.valD i) := by
    intro i hi
    rw [L.select_eq (by simp) _ hi, hJ i hi]
    simp only [selList, h5 i hi, Option.bind_some]
  have hadv' : AdvOk m mode' (some ca.2) J n := by
    cases mode with
    | none => exact absurd rfl hne
    | ident =>
      simp only [nextMode, Option.some.injEq] at hm; subst hm
      obtain ⟨a, _, _, g3⟩ := hadv
      exact ⟨_, rfl, by omega, fun i hi => ⟨ha i hi, (g3 i hi).2⟩⟩
    | some =>
      simp only [nextMode, Option.some.injEq] at hm; subst hm
      exact ⟨_, rfl, by omega, fun i hi => ⟨_, hJ i hi⟩⟩
    | junk => simp [nextMode] at hm
  refine (hk mode' (some ca.2) J c' h2 (h4 hf) (by rw [h3]; exact hadv')).mono ?_ ?_
  · intro hh
    refine ⟨h4 (hft hh), ?_⟩
    rw [h3]
    intro i hi
    rw [← key i hi]; exact hsel hh i hi
  · intro out ho
    rw [h3] at ho
    exact ⟨ho.good, ho.len_le, fun i hi => by rw [key i hi]; exact ho.val i hi⟩

theorem mapM_seg {c out : Content} {k : Val → Option Val} {s l : Nat}
    (h : ∀ t, t < l → k (c.valD (s + t)) = some (out.valD (s + t))) :
    (c.seg s l).mapM k = some (out.seg s l) := by
  refine mapM_of_get (by simp) ?_
  intro i hi
  rw [seg_length] at hi
  rw [seg_getElem, seg_getElem, h i hi]

theorem rangePos_lt {start stop : Option Int} {step : Int} (hs : step ≠ 0) {n : Nat} {x : Int}
    (hx : x ∈ rangePos start stop step n) : 0 ≤ x ∧ x < n :=
  mem_pySlicePositions (by omega) hs hx

theorem filterMap_getD {xs : List α} {pos : List Int} (h : ∀ x ∈ pos, 0 ≤ x ∧ x < xs.length) :
    (pos.filterMap (fun i => xs[i.toNat]?)).length = pos.length ∧
      ∀ k (hk : k < pos.length), (pos.filterMap (fun i => xs[i.toNat]?))[k]? = xs[pos[k].toNat]? := by
  induction pos with
  | nil => simp
  | cons x pos ih =>
    obtain ⟨h1, h2⟩ := ih (fun y hy => h y (List.mem_cons_of_mem _ hy))
    have hx := h x List.mem_cons_self
    have he : xs[x.toNat]? = some (xs[x.toNat]'(by omega)) := by simp
    rw [List.filterMap_cons_some (f := fun i : Int => xs[i.toNat]?) he]
    refine ⟨by simp [h1], ?_⟩
    intro k hk
    cases k with
    | zero => simp only [List.getElem?_cons_zero, List.getElem_cons_zero, he]
    | succ k => simpa using h2 k (by simpa using hk)

/-- The elements that a range selects, gathered. -/
theorem Lists.rangePick (L : Lists me c p n sI ln) {start stop : Option Int} {step : Int}
    (hs : step ≠ 0) :
    ∃ nc, c.carry true (((List.range n).map (fun i => (rangePos start stop step (ln i)).map
        (fun x => sI i + x))).flatten) = ok nc ∧ nc.Good ∧
      nc.len = sumTo (fun i => (rangePos start stop step (ln i)).length) n ∧
      (∀ {b m mode items}, Fits b m mode items c → Fits b m mode items nc) ∧
      ∀ i, i < n → pySlice (c.seg (sI i).toNat (ln i)) start stop step
        = nc.seg (sumTo (fun i => (rangePos start stop step (ln i)).length) i)
            (rangePos start stop step (ln i)).length := by
  set S : Nat → List Int := fun i => (rangePos start stop step (ln i)).map (fun x => sI i + x)
    with hS
  have hsl : ∀ j, sumTo (fun i => (S i).length) j
      = sumTo (fun i => (rangePos start stop step (ln i)).length) j :=
    fun j => sumTo_congr (fun i _ => by simp [hS])
  have hin : InRange (((List.range n).map S).flatten) c.len := by
    intro j hj
    simp only [List.mem_flatten, List.mem_map, List.mem_range] at hj
    obtain ⟨l, ⟨i, hi, rfl⟩, hj⟩ := hj
    simp only [hS, List.mem_map] at hj
    obtain ⟨x, hx, rfl⟩ := hj
    have := rangePos_lt hs hx
    have := L.bound i hi (by omega)
    omega
  obtain ⟨nc, h1, h2, _, h3, h4⟩ := carry_fits L.good true hin
  have hlen : (((List.range n).map S).flatten).length
      = sumTo (fun i => (rangePos start stop step (ln i)).length) n := by
    rw [flatten_map_length, hsl]
  refine ⟨nc, h1, h2, by rw [h3.1, hlen], h4, ?_⟩
  intro i hi
  have hpos : ∀ x ∈ rangePos start stop step (ln i),
      0 ≤ x ∧ x < (c.seg (sI i).toNat (ln i)).length := by
    intro x hx
    rw [seg_length]
    exact rangePos_lt hs hx
  obtain ⟨g1, g2⟩ := filterMap_getD hpos
  have e : pySlice (c.seg (sI i).toNat (ln i)) start stop step
      = (rangePos start stop step (ln i)).filterMap
          (fun x => (c.seg (sI i).toNat (ln i))[x.toNat]?) := by
    unfold pySlice rangePos
    rw [seg_length]
  rw [e]
  apply List.ext_getElem?
  intro k
  by_cases hk : k < (rangePos start stop step (ln i)).length
  · have hx := hpos _ (List.getElem_mem hk)
    rw [seg_length] at hx
    have hb := L.bound i hi (by omega)
    rw [g2 k hk, seg_getElem?, seg_getElem?, if_pos hk, if_pos (by omega)]
    have hg := flatten_map_get S hi (k := k) (by simpa [hS] using hk)
    rw [hsl] at hg
    have hgk : (S i)[k]? = some (sI i + (rangePos start stop step (ln i))[k]) := by
      simp [hS, hk]
    rw [hgk] at hg
    obtain ⟨hlt, hg⟩ := List.getElem?_eq_some_iff.mp hg
    rw [h3.valD hlt, hg]
    congr 2
    omega
  · rw [List.getElem?_eq_none (by omega), List.getElem?_eq_none (by simp; omega)]

/-- A range. -/
theorem list_range (L : Lists me c p n sI ln) (hk : NextOk m rest) {mode mode' : Mode}
    {adv : Adv} (hadv : AdvOk m mode adv J n) {start stop : Option Int} {step : Int}
    (hs : step ≠ 0) (hm : nextMode mode (.range start stop step) = some mode')
    (hf : Fits false m mode' rest c) (hft : h → Fits true m mode' rest c)
    (hsel : h → ∀ i, i < n → (select (.range start stop step :: rest) (J i) (me.valD i)).isSome)
    {f : Nat → Nat} (hfe : f = fun i => (rangePos start stop step (ln i)).length) :
    (c.carry true (((List.range n).map (fun i => (rangePos start stop step (ln i)).map
        (fun x => sI i + x))).flatten) >>= fun nc =>
      next rest (adv.map (fun a => spread f (fun i => a[i]?.getD 0) n)) nc).Tot h
      (fun out => out.Good ∧ sumTo f n ≤ out.len ∧ ∀ i, i < n →
        select (.range start stop step :: rest) (J i) (me.valD i)
          = some (wrapList p (out.seg (sumTo f i) (f i)))) := by
  obtain ⟨nc, h1, h2, h3, h4, h5⟩ := L.rangePick (start := start) (stop := stop) hs
  rw [h1, bind_ok]
  rw [← hfe] at h3 h5
  have h5 : ∀ i, i < n → pySlice (c.seg (sI i).toNat (ln i)) start stop step
      = nc.seg (sumTo f i) (f i) := by
    intro i hi
    rw [h5 i hi, hfe]
  have key : ∀ i, i < n → select (.range start stop step :: rest) (J i) (me.valD i)
      = ((nc.seg (sumTo f i) (f i)).mapM (select rest (J i))).map (wrapList p) := by
    intro i hi
    rw [L.select_eq (by simp) _ hi]
    simp only [selList]
    rw [h5 i hi]
  refine (hk mode' _ (spreadJ f J n) nc h2 (h4 hf) (by rw [h3]; exact hadv.spread hm f)).mono ?_ ?_
  · intro hh
    refine ⟨h4 (hft hh), ?_⟩
    rw [h3]
    intro t ht
    obtain ⟨i, k, hi, hki, rfl⟩ := sumTo_locate ht
    rw [spreadJ_get hi hki]
    have := hsel hh i hi
    rw [key i hi, Option.isSome_map] at this
    refine mapM_isSome this _ ?_
    rw [← seg_getElem (c := nc) (s := sumTo f i) (n := f i) (k := k) (by simpa using hki)]
    exact List.getElem_mem _
  · intro out ho
    rw [h3] at ho
    refine ⟨ho.good, ho.len_le, ?_⟩
    intro i hi
    rw [key i hi, mapM_seg (out := out) (fun t ht => ?_)]
    · rfl
    · have hlt : sumTo f i + t < sumTo f n := by
        have := sumTo_mono (f := f) (show i + 1 ≤ n by omega)
        rw [sumTo_succ] at this; omega
      have := ho.val _ hlt
      rwa [spreadJ_get hi ht] at this

theorem seg_sub (c : Content) {s n d l : Nat} (h : d + l ≤ n) :
    ((c.seg s n).drop d).take l = c.seg (s + d) l := by
  apply List.ext_getElem?
  intro k
  rw [List.getElem?_take, List.getElem?_drop, seg_getElem?, seg_getElem?]
  by_cases hk : k < l
  · rw [if_pos hk, if_pos hk, if_pos (by omega), Nat.add_assoc]
  · rw [if_neg hk, if_neg hk]

/-- The lists that restore the shape of an index array. -/
theorem arrayWrap_ok {out : Content} (hout : out.Good) (shape : List Nat) (hp : 0 < shape.prod)
    (z n : Nat) (hn : n * shape.prod ≤ out.len) :
    (arrayWrap out z shape).Good ∧ n ≤ (arrayWrap out z shape).len ∧
      ∀ i, i < n → (arrayWrap out z shape).valD i
        = nest shape (out.seg (i * shape.prod) shape.prod) := by
  induction shape generalizing z n with
  | nil =>
    simp only [arrayWrap, List.prod_nil, Nat.mul_one] at hn ⊢
    refine ⟨hout, hn, fun i _ => ?_⟩
    simp [nest, seg]
  | cons a ns ih =>
    rw [List.prod_cons] at hp hn
    have ha : 0 < a := Nat.pos_of_mul_pos_right hp
    have hns : 0 < ns.prod := Nat.pos_of_mul_pos_left hp
    obtain ⟨h1, h2, h3⟩ := ih hns a (n * a) (by rw [Nat.mul_assoc]; exact hn)
    simp only [arrayWrap]
    have hg : (regular {} (arrayWrap out a ns) a z).Good := good_regular.mpr h1
    have hl : n ≤ (regular {} (arrayWrap out a ns) a z).len := by
      simp only [len]
      rw [if_pos (by omega)]
      exact (Nat.le_div_iff_mul_le ha).mpr h2
    refine ⟨hg, hl, ?_⟩
    intro i hi
    rw [valD_regular h1 (by omega), wrapList_default, List.prod_cons]
    simp only [nest, seg]
    congr 1
    apply List.map_congr_left
    intro k hk
    rw [List.mem_range] at hk
    have hk' : i * a + k < n * a := by
      calc i * a + k < i * a + a := by omega
        _ = (i + 1) * a := by ring
        _ ≤ n * a := Nat.mul_le_mul_right _ hi
    rw [h3 _ hk']
    congr 1
    change _ = ((out.seg (i * (a * ns.prod)) (a * ns.prod)).drop (k * ns.prod)).take ns.prod
    rw [seg_sub]
    · congr 1; ring
    · calc k * ns.prod + ns.prod = (k + 1) * ns.prod := by ring
        _ ≤ a * ns.prod := Nat.mul_le_mul_right _ hk

/-- The first index array. -/
theorem list_first (L : Lists me c p n sI ln) (hk : NextOk m rest) {mode' : Mode}
    {shape : List Nat} {flat : List Int} (hi : ItemOk m (.array shape flat))
    (hJ : ∀ i, i < n → J i = none)
    (hm : mode' = .some ∨ (mode' = .ident ∧ n = 1)) {K : R (List Int × List Int)}
    (hK : K.Tot h (fun ca => ca.1.length = n * flat.length ∧ ca.2.length = n * flat.length ∧
      (∀ i, i < n → ∀ j, j < flat.length → ∃ x, ca.1[i * flat.length + j]? = some x ∧
        ∃ r, (flat[j]?.bind (fun a => regAt a (ln i))) = some r ∧ x = sI i + (r : Int)) ∧
      ∀ i, i < n → ∀ j, j < flat.length → ca.2[i * flat.length + j]? = some (j : Int)))
    (hf : Fits false m mode' rest c) (hft : h → Fits true m mode' rest c)
    (hsel : h → ∀ i, i < n → (select (.array shape flat :: rest) (J i) (me.valD i)).isSome) :
    (K >>= fun ca => c.carry true ca.1 >>= fun nc => next rest (some ca.2) nc >>= fun out =>
      ok (arrayWrap out 0 shape)).Tot h
      (fun out => Sel n out (fun i => select (.array shape flat :: rest) (J i) (me.valD i))) := by
  obtain ⟨hfl, hsh, hm0⟩ := hi
  refine hK.bind (fun ca hx => ?_)
  rw [hfl] at hx
  obtain ⟨hl, hl', hx, ha⟩ := hx
  have hx' : ∀ i, i < n → ∀ j, j < m → ∃ a r, flat[j]? = some a ∧ regAt a (ln i) = some r ∧
      ca.1[i * m + j]? = some (sI i + (r : Int)) := by
    intro i hi j hj
    obtain ⟨x, h1, r, h2, rfl⟩ := hx i hi j hj
    cases hfj : flat[j]? with
    | none => rw [hfj] at h2; simp at h2
    | some a => rw [hfj] at h2; exact ⟨a, r, rfl, h2, h1⟩
  have split : ∀ t, t < n * m → t / m < n ∧ t % m < m ∧ t = t / m * m + t % m := by
    intro t ht
    exact ⟨Nat.div_lt_of_lt_mul (by rw [Nat.mul_comm]; exact ht), Nat.mod_lt _ hm0,
      by rw [Nat.mul_comm]; exact (Nat.div_add_mod t m).symm⟩
  have hin : InRange ca.1 c.len := by
    intro x hxm
    obtain ⟨t, ht, rfl⟩ := List.getElem_of_mem hxm
    obtain ⟨h1, h2, h3⟩ := split t (by omega)
    obtain ⟨a, r, _, g2, g3⟩ := hx' _ h1 _ h2
    rw [← h3] at g3
    obtain ⟨_, g3⟩ := List.getElem?_eq_some_iff.mp g3
    rw [g3]
    exact (L.pyGet h1 g2).2
  obtain ⟨nc, h1, h2, _, h3, h4⟩ := carry_fits L.good true hin
  rw [h1, bind_ok]
  have hnl : nc.len = n * m := by rw [h3.1, hl]
  have hpos : ∀ i, i < n → ∀ j, j < m →
      (flat[j]?.bind (pyGet? (c.seg (sI i).toNat (ln i)))) = some (nc.valD (i * m + j)) := by
    intro i hi j hj
    obtain ⟨a, r, g1, g2, g3⟩ := hx' i hi j hj
    obtain ⟨hlt, g3⟩ := List.getElem?_eq_some_iff.mp g3
    rw [g1]
    simp only [Option.bind_some]
    rw [(L.pyGet hi g2).1, h3.valD hlt, g3]
  have key : ∀ i, i < n → select (.array shape flat :: rest) (J i) (me.valD i)
      = ((List.range m).mapM (fun j => select rest (some j) (nc.valD (i * m + j)))).map
          (nest shape) := by
    intro i hi
    rw [L.select_eq (by simp) _ hi, hJ i hi]
    simp only [selList, hfl]
    congr 1
    have : ∀ xs : List Nat, (∀ x ∈ xs, x < m) →
        xs.mapM (fun j => (flat[j]?.bind (pyGet? (c.seg (sI i).toNat (ln i)))).bind
          (select rest (some j)))
        = xs.mapM (fun j => select rest (some j) (nc.valD (i * m + j))) := by
      intro xs hxs
      induction xs with
      | nil => rfl
      | cons x xs ihx =>
        rw [List.mapM_cons, List.mapM_cons, ihx (fun y hy => hxs y (List.mem_cons_of_mem _ hy)),
          hpos i hi x (hxs x List.mem_cons_self)]
        rfl
    exact this _ (fun x hx => List.mem_range.mp hx)
  have hmod : ∀ i j, j < m → (i * m + j) % m = j := by
    intro i j hj
    rw [Nat.add_comm, Nat.add_mul_mod_self_right, Nat.mod_eq_of_lt hj]
  have hadv : AdvOk m mode' (some ca.2) (fun t => some (t % m)) nc.len := by
    rw [hnl]
    rcases hm with rfl | ⟨rfl, rfl⟩
    · refine ⟨_, rfl, by omega, fun t ht => ?_⟩
      obtain ⟨g1, g2, g3⟩ := split t ht
      refine ⟨t % m, g2, ?_, rfl⟩
      have := ha _ g1 _ g2
      rwa [← g3] at this
    · refine ⟨_, rfl, by omega, fun t ht => ?_⟩
      rw [Nat.one_mul] at ht
      have := ha 0 (by omega) t ht
      rw [Nat.zero_mul, Nat.zero_add] at this
      exact ⟨this, by simp only [Nat.mod_eq_of_lt ht], ht⟩
  refine ((hk mode' (some ca.2) _ nc h2 (h4 hf) hadv).mono (fun hh => ?_) (fun _ ho => ho)).bind
    (fun out ho => .ok ?_)
  · refine ⟨h4 (hft hh), ?_⟩
    rw [hnl]
    intro t ht
    obtain ⟨g1, g2, g3⟩ := split t ht
    have := hsel hh _ g1
    rw [key _ g1, Option.isSome_map] at this
    have := mapM_isSome this (t % m) (List.mem_range.mpr g2)
    rwa [← g3] at this
  · rw [hnl] at ho
    obtain ⟨g1, g2, g3⟩ := arrayWrap_ok ho.good shape (by omega) 0 n (by rw [hsh]; exact ho.len_le)
    refine ⟨g1, g2, ?_⟩
    intro i hi
    rw [key i hi, g3 i hi, hsh]
    have : (List.range m).mapM (fun j => select rest (some j) (nc.valD (i * m + j)))
        = some (out.seg (i * m) m) := by
      refine mapM_of_get (by simp) ?_
      intro j hj
      rw [List.length_range] at hj
      rw [List.getElem_range, seg_getElem]
      have hlt : i * m + j < n * m := by
        calc i * m + j < i * m + m := by omega
          _ = (i + 1) * m := by ring
          _ ≤ n * m := Nat.mul_le_mul_right _ hi
      have := ho.val _ hlt
      simp only [hmod i j hj] at this
      exact this
    rw [this]; rfl

end
end Content
end Awk
