import Verif.Lemmas.Field
import Verif.Lemmas.Shape
import Verif.Lemmas.OptionNext
import Verif.Model.Astype
import Verif.Spec.Astype
import Mathlib.Data.Rat.Floor
import Mathlib.Tactic.Positivity
import Mathlib.Tactic.Linarith
/-
Converting the numbers of an array.
-/

namespace Awk
open R

/-! ### Numbers -/

theorem truncates_tdiv (q : Rat) : Truncates q (q.num.tdiv q.den) := by
  have hd : (0 : Int) < q.den := by exact_mod_cast q.den_pos
  have hd' : (0 : Rat) < q.den := by exact_mod_cast q.den_pos
  have he : q = (q.num : Rat) / q.den := q.num_div_den.symm
  have hm := Int.mul_tdiv_add_tmod q.num q.den
  generalize hk : q.num.tdiv q.den = k at *
  constructor
  · intro h
    have h0 : 0 ≤ q.num := Rat.num_nonneg.mpr h
    have h1 := Int.tmod_nonneg (q.den : Int) h0
    have h2 := Int.tmod_lt_of_pos q.num hd
    rw [he, le_div_iff₀ hd', div_lt_iff₀ hd']
    constructor
    · have : k * q.den ≤ q.num := by rw [mul_comm]; omega
      exact_mod_cast this
    · have : q.num < (k + 1) * q.den := by rw [add_mul, mul_comm]; omega
      exact_mod_cast this
  · intro h
    have h0 : q.num ≤ 0 := Rat.num_nonpos.mpr h
    have h1 : q.num.tmod q.den ≤ 0 := by
      have := Int.tmod_nonneg (a := -q.num) (q.den : Int) (by omega)
      rw [Int.neg_tmod] at this; omega
    have h2 : -(q.den : Int) < q.num.tmod q.den := by
      have := Int.tmod_lt_of_pos (-q.num) hd
      rw [Int.neg_tmod] at this; omega
    rw [he, div_le_iff₀ hd', lt_div_iff₀ hd']
    constructor
    · have : q.num ≤ k * q.den := by rw [mul_comm]; omega
      exact_mod_cast this
    · have : (k - 1) * q.den < q.num := by rw [sub_mul, mul_comm]; omega
      exact_mod_cast this

theorem truncates_int (i : Int) : Truncates (i : Rat) i := by
  constructor
  · intro _; exact ⟨le_refl _, by linarith⟩
  · intro _; exact ⟨le_refl _, by linarith⟩

theorem wrapInt_spec (signed : Bool) (n : Nat) (hn : 0 < n) (i : Int) :
    let lo : Int := if signed then -2 ^ (n - 1) else 0
    lo ≤ wrapInt signed n i ∧ wrapInt signed n i < lo + 2 ^ n ∧ (2 ^ n : Int) ∣ i - wrapInt signed n i := by
  have hp : (0 : Int) < 2 ^ n := by positivity
  have h1 := Int.emod_nonneg i (b := 2 ^ n) (by omega)
  have h2 := Int.emod_lt_of_pos i hp
  have hd : (2 ^ n : Int) ∣ i - i % 2 ^ n := Int.dvd_self_sub_emod
  have hs : (2 : Int) ^ n = 2 * 2 ^ (n - 1) := by
    obtain ⟨m, rfl⟩ : ∃ m, n = m + 1 := ⟨n - 1, by omega⟩
    simp [pow_succ]; ring
  simp only [wrapInt]
  cases signed with
  | false => simp only [Bool.false_eq_true, false_and, if_false]; exact ⟨h1, by omega, hd⟩
  | true =>
    simp only [true_and, if_true]
    split
    · refine ⟨by omega, by omega, ?_⟩
      have : i - (i % 2 ^ n - 2 ^ n) = (i - i % 2 ^ n) + 2 ^ n := by ring
      rw [this]; exact Int.dvd_add hd (Int.dvd_refl _)
    · exact ⟨by omega, by omega, hd⟩

theorem truncInt_ok {signed : Bool} {n : Nat} (hn : 0 < n) {q : Rat} {lo : Int}
    (hlo : lo = if signed then -2 ^ (n - 1) else 0) (h1 : (lo : Rat) - 1 < q)
    (h2 : q < lo + 2 ^ n) :
    truncInt signed n q = ok (q.num.tdiv q.den) ∧ lo ≤ q.num.tdiv q.den ∧
      q.num.tdiv q.den < lo + 2 ^ n := by
  have ht := truncates_tdiv q
  generalize hk : q.num.tdiv q.den = k at *
  have hlo0 : lo ≤ 0 := by
    rw [hlo]
    split
    · have : (0 : Int) < 2 ^ (n - 1) := by positivity
      omega
    · omega
  have hhi : 0 < lo + 2 ^ n := by
    rw [hlo]
    split
    · have hp : (0 : Int) < 2 ^ (n - 1) := by positivity
      have : (2 : Int) ^ (n - 1) ≤ 2 ^ n := pow_le_pow_right₀ (by norm_num) (by omega)
      obtain ⟨m, rfl⟩ : ∃ m, n = m + 1 := ⟨n - 1, by omega⟩
      simp [pow_succ] at *
    · positivity
  have hr : lo ≤ k ∧ k < lo + 2 ^ n := by
    rcases le_total 0 q with h | h
    · obtain ⟨h3, h4⟩ := ht.1 h
      constructor
      · have : (0 : Rat) < (k + 1 : Int) := by push_cast; linarith
        have : 0 < k + 1 := by exact_mod_cast this
        omega
      · have : (k : Rat) < (lo + 2 ^ n : Int) := by push_cast; linarith
        exact_mod_cast this
    · obtain ⟨h3, h4⟩ := ht.2 h
      constructor
      · have : ((lo - 1 : Int) : Rat) < k := by push_cast; linarith
        have : lo - 1 < k := by exact_mod_cast this
        omega
      · have : ((k - 1 : Int) : Rat) < 0 := by push_cast; linarith
        have : k - 1 < 0 := by exact_mod_cast this
        omega
  refine ⟨?_, hr⟩
  simp only [truncInt, hk]
  rw [← hlo, if_pos hr]

theorem castInt_ok {signed : Bool} {n : Nat} (hn : 1 < n) {lo : Int}
    (hlo : lo = if signed then -2 ^ (n - 1) else 0) {a : Atom} {re im : Rat}
    (ha : a.HasParts re im)
    (h : (∀ i, a ≠ .int i) → (lo : Rat) - 1 < re ∧ re < lo + 2 ^ n) :
    ∃ k j, castInt signed n a = ok j ∧ Truncates re k ∧ lo ≤ j ∧ j < lo + 2 ^ n ∧
      (2 ^ n : Int) ∣ k - j := by
  cases ha with
  | bool b =>
    have hlo0 : lo ≤ 0 ∧ 1 < lo + 2 ^ n := by
      obtain ⟨m, rfl⟩ : ∃ m, n = m + 2 := ⟨n - 2, by omega⟩
      have : (0 : Int) < 2 ^ m := by positivity
      simp [pow_succ] at hlo ⊢
      cases signed <;> simp at hlo <;> omega
    refine ⟨if b then 1 else 0, if b then 1 else 0, rfl, ?_, ?_, ?_, by simp⟩
    · cases b
      · exact truncates_int 0
      · exact truncates_int 1
    · cases b <;> simp <;> omega
    · cases b <;> simp <;> omega
  | int i =>
    obtain ⟨h1, h2, h3⟩ := wrapInt_spec signed n (by omega) i
    rw [← hlo] at h1 h2
    exact ⟨i, _, rfl, truncates_int i, h1, h2, h3⟩
  | real q =>
    obtain ⟨h1, h2⟩ := h (by simp)
    obtain ⟨h3, h4, h5⟩ := truncInt_ok (by omega) hlo h1 h2
    exact ⟨_, _, h3, truncates_tdiv _, h4, h5, by simp⟩
  | complex re im =>
    obtain ⟨h1, h2⟩ := h (by simp)
    obtain ⟨h3, h4, h5⟩ := truncInt_ok (by omega) hlo h1 h2
    exact ⟨_, _, h3, truncates_tdiv _, h4, h5, by simp⟩

theorem castAtom_ok {ty : DType} {a : Atom} (h : Convertible ty a) :
    ∃ b, castAtom ty a = ok b ∧ Converted ty a b := by
  obtain ⟨re, im, hp, h⟩ := h
  have ints : ∀ (d : DType) (lo : Int) (signed : Bool) (n : Nat), d.intType = some (lo, n) → 1 < n →
      lo = (if signed then -2 ^ (n - 1) else 0) →
      (∀ lo n, d.intType = some (lo, n) → (∀ i, a ≠ .int i) → (lo : Rat) - 1 < re ∧ re < lo + 2 ^ n) →
      ∃ b, (castInt signed n a >>= fun i => ok (Atom.int i)) = ok b ∧ ∃ re im, a.HasParts re im ∧
        ∃ lo n k j, d.intType = some (lo, n) ∧ Truncates re k ∧ b = .int j ∧ lo ≤ j ∧
        j < lo + 2 ^ n ∧ (2 ^ n : Int) ∣ k - j := by
    intro d lo signed n hd hn hlo h
    obtain ⟨k, j, h1, h2, h3, h4, h5⟩ := castInt_ok hn hlo hp (h lo n hd)
    exact ⟨.int j, by rw [h1, bind_ok], re, im, hp, lo, n, k, j, hd, h2, rfl, h3, h4, h5⟩
  have hparts : a.parts = (re, im) := by cases hp <;> rfl
  cases ty with
  | bool =>
    cases hp with
    | bool b => exact ⟨.bool b, rfl, _, _, .bool b, b, rfl, by cases b <;> simp⟩
    | int i =>
      rcases h with ⟨re, im, h, _⟩ | ⟨_, h⟩
      · cases h
      · refine ⟨.bool (i > 0), rfl, _, _, .int i, _, rfl, ?_⟩
        have h : 0 ≤ i := by exact_mod_cast h
        simp only [decide_eq_false_iff_not, not_lt, and_true, Int.cast_eq_zero, gt_iff_lt]
        omega
    | real q =>
      rcases h with ⟨_, _, h, _⟩ | ⟨_, h⟩
      · cases h
      · refine ⟨.bool (re > 0), rfl, _, _, .real re, _, rfl, ?_⟩
        simp only [decide_eq_false_iff_not, not_lt, and_true, gt_iff_lt]
        exact ⟨fun h' => le_antisymm h' h, fun h' => h'.le⟩
    | complex re im =>
      rcases h with ⟨re', im', h, h'⟩ | ⟨h, _⟩
      · cases h
        refine ⟨.bool (re ≠ 0), rfl, _, _, .complex re im, _, rfl, ?_⟩
        simp only [decide_eq_false_iff_not, not_not, ne_eq]
        exact ⟨fun h => ⟨h, h' h⟩, fun h => h.1⟩
      · exact absurd rfl (h re im)
  | int8 => exact ints .int8 _ true 8 rfl (by omega) rfl h
  | int16 => exact ints .int16 _ true 16 rfl (by omega) rfl h
  | int32 => exact ints .int32 _ true 32 rfl (by omega) rfl h
  | int64 => exact ints .int64 _ true 64 rfl (by omega) rfl h
  | uint8 => exact ints .uint8 _ false 8 rfl (by omega) rfl h
  | uint16 => exact ints .uint16 _ false 16 rfl (by omega) rfl h
  | uint32 => exact ints .uint32 _ false 32 rfl (by omega) rfl h
  | uint64 => exact ints .uint64 _ false 64 rfl (by omega) rfl h
  | float32 => exact ⟨_, rfl, re, im, hp, by simp [hparts]⟩
  | float64 => exact ⟨_, rfl, re, im, hp, by simp [hparts]⟩
  | complex64 => exact ⟨_, rfl, re, im, hp, by simp [hparts]⟩
  | complex128 => exact ⟨_, rfl, re, im, hp, by simp [hparts]⟩
  | datetime64 =>
    obtain ⟨k, j, h1, h2, h3, h4, h5⟩ := castInt_ok (signed := true) (n := 64) (by omega) rfl hp
      (fun hi => by
        obtain ⟨h6, h7⟩ := h hi
        norm_num at h6 h7 ⊢
        exact ⟨h6, h7⟩)
    exact ⟨.datetime j, by simp only [castAtom]; rw [h1, bind_ok], re, im, hp, k, j, h2, rfl,
      by norm_num at h3 ⊢; exact h3, by norm_num at h4 ⊢; exact h4, h5⟩
  | timedelta64 => exact absurd h (by simp)

/-- The number that `castAtom` makes. -/
def castD (ty : DType) (a : Atom) : Atom :=
  match castAtom ty a with
  | ok b => b
  | _ => a

theorem castAtom_castD {ty : DType} {a : Atom} (h : Convertible ty a) :
    castAtom ty a = ok (castD ty a) := by
  obtain ⟨b, h1, _⟩ := castAtom_ok h
  simp only [castD, h1]

theorem converted_castD {ty : DType} {a : Atom} (h : Convertible ty a) :
    Converted ty a (castD ty a) := by
  obtain ⟨b, h1, h2⟩ := castAtom_ok h
  simpa only [castD, h1] using h2

theorem castToType_ok {ty : DType} {f : Atom → Atom} {data : List Atom} (ht : ty ≠ .timedelta64)
    (h : ∀ a ∈ data, castAtom ty a = ok (f a)) :
    castToType ty data data.length = ok (data.map f) := by
  unfold castToType
  rw [if_neg ht, forN_fill_eq (fun i => f (data[i]?.getD (.int 0))) (by simp [allocAtoms])]
  · congr 1
    apply List.ext_getElem
    · simp
    · intro i h1 h2
      simp only [List.length_map] at h2
      simp [h2]
  · intro i hi
    rw [rd_nat_ok hi, bind_ok, h _ (List.getElem_mem hi)]
    simp [hi]

/-! ### Values -/

namespace Val

theorem mapNumbersList_eq (f : Atom → Atom) (vs : List Val) :
    mapNumbersList f vs = vs.map (mapNumbers f) := by
  induction vs with
  | nil => rfl
  | cons v vs ih => simp [mapNumbersList, ih]

theorem mapNumbersFields_zip (f : Atom → Atom) (ks : List String) (vs : List Val) :
    mapNumbersFields f (ks.zip vs) = ks.zip (vs.map (mapNumbers f)) := by
  induction ks generalizing vs with
  | nil => rfl
  | cons k ks ih => cases vs <;> simp [mapNumbersFields, ih]

theorem mapNumbers_null (f : Atom → Atom) : mapNumbers f .null = .null := by simp [mapNumbers]

theorem mapNumbers_list (f : Atom → Atom) {p : Params} (hp : p.arr = .none) (vs : List Val) :
    mapNumbers f (wrapList p vs) = wrapList p (vs.map (mapNumbers f)) := by
  simp [wrapList, hp, mapNumbers, mapNumbersList_eq]

theorem mapNumbers_string (f : Atom → Atom) {p : Params}
    (hp : p.arr = .string ∨ p.arr = .bytestring) (vs : List Val) :
    mapNumbers f (wrapList p vs) = wrapList p vs := by
  rcases hp with hp | hp <;> simp [wrapList, hp, mapNumbers]

theorem mapNumbers_mkRecord (f : Atom → Atom) (keys : Option (List String)) (vs : List Val) :
    mapNumbers f (mkRecord keys vs) = mkRecord keys (vs.map (mapNumbers f)) := by
  cases keys <;> simp [mkRecord, mapNumbers, mapNumbersList_eq, mapNumbersFields_zip]

end Val

namespace Content

/-! ### Nodes -/

section
variable {F : Val → Val} {p : Params} {c next : Content}

theorem keepLists_regular {size zeros : Nat} (hc : c.Good)
    (hF : ∀ vs, F (wrapList p vs) = wrapList p (vs.map F)) (h : MapsG True c next F) :
    MapsG True (regular p c size zeros) (regular p next size (regular p c size zeros).len) F := by
  have hle := h.exact trivial
  have hll : (Content.regular p next size (Content.regular p c size zeros).len).len
      = (Content.regular p c size zeros).len := by
    simp only [len, hle]
    split <;> rfl
  refine ⟨⟨good_regular.mpr h.good, by omega, ?_⟩, fun _ => hll⟩
  intro i hi
  rw [valD_regular h.good (by omega), valD_regular hc hi, hF, h.seg (regular_bound hi)]

theorem keepLists_listArray {starts stops : List Int} (hg : (listArray p starts stops c).Good)
    (hF : ∀ vs, F (wrapList p vs) = wrapList p (vs.map F)) (h : MapsG True c next F) :
    MapsG True (listArray p starts stops c) (listArray p starts stops next) F := by
  obtain ⟨hl, hc, hp⟩ := good_listArray.mp hg
  have hg' : (Content.listArray p starts stops next).Good :=
    good_listArray.mpr ⟨hl, h.good, fun i hi => GoodPair.mono (hp i hi) h.len_le⟩
  refine ⟨⟨hg', Nat.le_refl _, ?_⟩, fun _ => rfl⟩
  intro i hi
  simp only [len] at hi
  rw [valD_listArray hg' hi (by omega), valD_listArray hg hi (by omega), hF,
    h.seg_pair (hp i hi)]

theorem keepLists_listOffset {offsets : List Int} (hg : (listOffset p offsets c).Good)
    (hF : ∀ vs, F (wrapList p vs) = wrapList p (vs.map F)) (h : MapsG True c next F) :
    MapsG True (listOffset p offsets c) (listOffset p offsets next) F := by
  obtain ⟨hl, hc, hp⟩ := good_listOffset.mp hg
  have hg' : (Content.listOffset p offsets next).Good :=
    good_listOffset.mpr ⟨hl, h.good, fun i hi => GoodPair.mono (hp i hi) h.len_le⟩
  refine ⟨⟨hg', Nat.le_refl _, ?_⟩, fun _ => rfl⟩
  intro i hi
  simp only [len] at hi
  rw [valD_listOffset hg' (by omega), valD_listOffset hg (by omega), hF,
    h.seg_pair (hp i (by omega))]

end

/-- What `numbers_to_type` makes of an array. -/
structure Cast (f : Atom → Atom) (c c' : Content) : Prop extends
    MapsG True c c' (Val.mapNumbers f) where
  layout : c'.layout = ok ()
  option : c'.isOptionOrIndexed = c.isOptionOrIndexed
  union : c'.isUnion = c.isUnion

theorem Cast.nested {f : Atom → Atom} {c c' : Content} (h : Cast f c c') (hc : c.nestedOk = ok ()) :
    c'.nestedOk = ok () := by
  simpa only [nestedOk, h.option] using hc

theorem numbersToTypeAll_ok {ty : DType} {f : Atom → Atom} {cs : List Content}
    (h : ∀ c ∈ cs, ∃ c', c.numbersToType ty = ok c' ∧ Cast f c c') :
    ∃ cs', numbersToTypeAll ty cs = ok cs' ∧ List.Forall₂ (Cast f) cs cs' := by
  induction cs with
  | nil => exact ⟨[], rfl, .nil⟩
  | cons c cs ih =>
    obtain ⟨c', h1, h2⟩ := h c List.mem_cons_self
    obtain ⟨cs', h3, h4⟩ := ih (fun d hd => h d (List.mem_cons_of_mem _ hd))
    exact ⟨c' :: cs', by simp only [numbersToTypeAll, h1, h3, bind_ok], .cons h2 h4⟩

/-- The contents of strings stay. -/
theorem numbersToType_chars {ty : DType} {q : Params} {data : List Atom}
    (h : q.arr = .char ∨ q.arr = .byte) :
    (numpy q .uint8 data).numbersToType ty = ok (numpy q .uint8 data) := by
  simp only [numbersToType, numpyToType]
  rw [if_pos h.symm]

theorem numbersToType_cast {ty : DType} {f : Atom → Atom} (ht : ty ≠ .timedelta64)
    (hf : ∀ a, Convertible ty a → castAtom ty a = ok (f a)) {c : Content} (hg : c.Good)
    (hl : c.layout = ok ()) (hc : AllNodes (ConvertibleNode ty) c) :
    ∃ c', c.numbersToType ty = ok c' ∧ Cast f c c' := by
  have lists : ∀ {p : Params} {d : Content},
      (paramsOkList p d >>= fun _ =>
        if p.arr = .string ∨ p.arr = .bytestring then ok () else d.layout) = ok () →
      ((p.arr = .string ∨ p.arr = .bytestring) ∧ d.numbersToType ty = ok d) ∨
        (p.arr = .none ∧ d.layout = ok ()) := by
    intro p d h
    simp only [bind_eq_ok] at h
    obtain ⟨_, h1, h2⟩ := h
    rcases paramsOkList_content h1 h2 with ⟨h3, q, data, rfl, h4, h5⟩ | h3
    · refine .inl ⟨h3, numbersToType_chars ?_⟩
      rcases h3 with h3 | h3
      · exact .inl (h4 h3)
      · exact .inr (h5 h3)
    · exact .inr h3
  induction c using induct with
  | empty p =>
    refine ⟨_, rfl, ⟨⟨hg, Nat.le_refl _, fun i hi => ?_⟩, fun _ => rfl⟩, hl, rfl, rfl⟩
    simp [len] at hi
  | numpy p d data =>
    have hn := hc.here
    simp only [ConvertibleNode] at hn
    have hp : p.arr = .none := by
      simp only [layout, paramsOk] at hl
      cases h : p.arr <;> simp [h] at hl ⊢
    refine ⟨numpy p ty (data.map f), ?_, ⟨⟨good_numpy _ _ _, by simp [len], ?_⟩, by simp [len]⟩,
      hl, rfl, rfl⟩
    · simp only [numbersToType, numpyToType]
      rw [if_neg (by simp [hp]), if_neg (by simp [hn.1, hn.2.1]), castToType_ok ht (fun a ha => hf a (hn.2.2 a ha)), bind_ok]
    · intro i hi
      simp only [len] at hi
      rw [valD_numpy (by simpa using hi), valD_numpy hi]
      simp [Val.mapNumbers]
  | regular p d size zeros ih =>
    have hd := good_regular.mp hg
    rcases lists hl with ⟨hp, hs⟩ | ⟨hp, hdl⟩
    · refine ⟨regular p d size (regular p d size zeros).len, by
        simp only [numbersToType, hs, bind_ok], ?_⟩
      have hll : (Content.regular p d size (Content.regular p d size zeros).len).len
          = (Content.regular p d size zeros).len := by
        simp only [len]; split <;> rfl
      refine ⟨⟨⟨good_regular.mpr hd, by omega, fun i hi => ?_⟩, fun _ => hll⟩, hl, rfl, rfl⟩
      rw [valD_regular hd (by omega), valD_regular hd hi, Val.mapNumbers_string _ hp]
    · obtain ⟨d', h1, h2⟩ := ih hd hdl (hc.child (by simp [children]))
      refine ⟨_, by simp only [numbersToType, h1, bind_ok],
        keepLists_regular hd (Val.mapNumbers_list _ hp) h2.toMapsG, ?_, rfl, rfl⟩
      simp [layout, paramsOkList, hp, h2.layout]
  | listArray p starts stops d ih =>
    have hd := (good_listArray.mp hg).2.1
    rcases lists hl with ⟨hp, hs⟩ | ⟨hp, hdl⟩
    · refine ⟨listArray p starts stops d, by simp only [numbersToType, hs, bind_ok],
        ⟨⟨hg, Nat.le_refl _, fun i hi => ?_⟩, fun _ => rfl⟩, hl, rfl, rfl⟩
      simp only [len] at hi
      have := (good_listArray.mp hg).1
      rw [valD_listArray hg hi (by omega), Val.mapNumbers_string _ hp]
    · obtain ⟨d', h1, h2⟩ := ih hd hdl (hc.child (by simp [children]))
      refine ⟨_, by simp only [numbersToType, h1, bind_ok],
        keepLists_listArray hg (Val.mapNumbers_list _ hp) h2.toMapsG, ?_, rfl, rfl⟩
      simp [layout, paramsOkList, hp, h2.layout]
  | listOffset p offsets d ih =>
    have hd := (good_listOffset.mp hg).2.1
    rcases lists hl with ⟨hp, hs⟩ | ⟨hp, hdl⟩
    · refine ⟨listOffset p offsets d, by simp only [numbersToType, hs, bind_ok],
        ⟨⟨hg, Nat.le_refl _, fun i hi => ?_⟩, fun _ => rfl⟩, hl, rfl, rfl⟩
      simp only [len] at hi
      rw [valD_listOffset hg (by omega), Val.mapNumbers_string _ hp]
    · obtain ⟨d', h1, h2⟩ := ih hd hdl (hc.child (by simp [children]))
      refine ⟨_, by simp only [numbersToType, h1, bind_ok],
        keepLists_listOffset hg (Val.mapNumbers_list _ hp) h2.toMapsG, ?_, rfl, rfl⟩
      simp [layout, paramsOkList, hp, h2.layout]
  | indexed p index d ih =>
    simp only [layout, bind_eq_ok] at hl
    obtain ⟨_, l1, _, l2, l3⟩ := hl
    obtain ⟨d', h1, h2⟩ := ih (hg.child (by simp [children])) l3 (hc.child (by simp [children]))
    refine ⟨indexed p index d', by simp only [numbersToType, h1, bind_ok], MapsG.indexed hg h2.toMapsG, ?_, rfl, rfl⟩
    simp only [layout, l1, h2.nested l2, h2.layout, bind_ok]
  | indexedOption p index d ih =>
    simp only [layout, bind_eq_ok] at hl
    obtain ⟨_, l1, _, l2, l3⟩ := hl
    obtain ⟨d', h1, h2⟩ := ih (hg.child (by simp [children])) l3 (hc.child (by simp [children]))
    refine ⟨indexedOption p index d', by simp only [numbersToType, h1, bind_ok],
      MapsG.indexedOption hg (Val.mapNumbers_null _) h2.toMapsG, ?_, rfl, rfl⟩
    simp only [layout, l1, h2.nested l2, h2.layout, bind_ok]
  | byteMasked p mask vw d ih =>
    simp only [layout, bind_eq_ok] at hl
    obtain ⟨_, l1, _, l2, l3⟩ := hl
    obtain ⟨d', h1, h2⟩ := ih (hg.child (by simp [children])) l3 (hc.child (by simp [children]))
    refine ⟨byteMasked p mask vw d', by simp only [numbersToType, h1, bind_ok],
      MapsG.byteMasked hg (Val.mapNumbers_null _) h2.toMapsG, ?_, rfl, rfl⟩
    simp only [layout, l1, h2.nested l2, h2.layout, bind_ok]
  | bitMasked p mask vw length lsb d ih =>
    simp only [layout, bind_eq_ok] at hl
    obtain ⟨_, l1, _, l2, l3⟩ := hl
    obtain ⟨d', h1, h2⟩ := ih (hg.child (by simp [children])) l3 (hc.child (by simp [children]))
    have hm := maps_bitMasked (p' := p) hg (Val.mapNumbers_null f) h2.toMapsG
    obtain ⟨bm, h3, h4, h5, h6⟩ := toByteMasked_bit hm.good
    refine ⟨_, by simp only [numbersToType, h1, bind_ok]; exact h3,
      ⟨⟨h5, by simp only [len]; omega, fun i hi => ?_⟩, fun _ => by simp only [len]; omega⟩, ?_, rfl, rfl⟩
    · rw [h6 i hi, hm.val i hi]
    · simp only [layout, l1, h2.nested l2, h2.layout, bind_ok]
  | unmasked p d ih =>
    simp only [layout, bind_eq_ok] at hl
    obtain ⟨_, l1, _, l2, l3⟩ := hl
    obtain ⟨d', h1, h2⟩ := ih (hg.child (by simp [children])) l3 (hc.child (by simp [children]))
    refine ⟨unmasked p d', by simp only [numbersToType, h1, bind_ok], MapsG.unmasked h2.toMapsG, ?_, rfl, rfl⟩
    simp only [layout, l1, h2.nested l2, h2.layout, bind_ok]
  | record p keys cs length ih =>
    simp only [layout, bind_eq_ok] at hl
    obtain ⟨_, l1, l2⟩ := hl
    obtain ⟨hlen, hcs⟩ := good_record.mp hg
    obtain ⟨cs', h1, h2⟩ := numbersToTypeAll_ok fun d hd =>
      ih d hd (hcs d hd) (layoutAll_ok.mp l2 d hd) (hc.child (by simpa [children] using hd))
    refine ⟨record p keys cs' length, by simp only [numbersToType, h1, bind_ok], ?_, ?_, rfl, rfl⟩
    · have hg' : (Content.record p keys cs' length).Good := by
        refine good_record.mpr ⟨fun d hd => ?_, fun d hd => ?_⟩
        · obtain ⟨e, he, hm⟩ := forall₂_mem h2 hd
          have := hlen e he; have := hm.exact trivial; omega
        · obtain ⟨e, _, hm⟩ := forall₂_mem h2 hd
          exact hm.good
      refine ⟨⟨hg', Nat.le_refl _, fun i hi => ?_⟩, fun _ => rfl⟩
      simp only [len] at hi
      rw [valD_record hg' hi, valD_record hg hi, Val.mapNumbers_mkRecord,
        forall₂_map_valD (h2.imp fun _ _ h => h.toMaps) (fun c hc => by have := hlen c hc; omega)]
    · simp only [layout, l1, bind_ok]
      refine layoutAll_ok.mpr fun d hd => ?_
      obtain ⟨e, _, hm⟩ := forall₂_mem h2 hd
      exact hm.layout
  | union p tags index cs ih =>
    simp only [layout, bind_eq_ok] at hl
    obtain ⟨_, l1, l2⟩ := hl
    split at l2
    · cases l2
    · rename_i hu
      obtain ⟨_, hcs, _⟩ := good_union.mp hg
      obtain ⟨cs', h1, h2⟩ := numbersToTypeAll_ok fun d hd =>
        ih d hd (hcs d hd) (layoutAll_ok.mp l2 d hd) (hc.child (by simpa [children] using hd))
      refine ⟨union p tags index cs', by simp only [numbersToType, h1, bind_ok],
        MapsG.union hg (h2.imp fun _ _ h => h.toMaps), ?_, rfl, rfl⟩
      simp only [layout, l1, bind_ok]
      rw [if_neg]
      · refine layoutAll_ok.mpr fun d hd => ?_
        obtain ⟨e, _, hm⟩ := forall₂_mem h2 hd
        exact hm.layout
      · simp only [List.any_eq_true, not_exists, not_and, Bool.not_eq_true] at hu ⊢
        intro d hd
        obtain ⟨e, he, hm⟩ := forall₂_mem h2 hd
        rw [hm.union]; exact hu e he

end Content
end Awk
