import Verif.Lemmas.Content
/-
What a successful validity check implies.
-/

namespace Awk
open R

/-- A loop that only checks: it succeeds exactly when every iteration does. -/
theorem forN_unit {n : Nat} {body : Nat → Unit → R Unit} :
    forN n body () = ok () ↔ ∀ i, i < n → body i () = ok () := by
  induction n with
  | zero => simp
  | succ n ih =>
    rw [forN_succ, bind_eq_ok]
    constructor
    · rintro ⟨⟨⟩, h1, h2⟩ i hi
      by_cases hin : i = n
      · subst hin; exact h2
      · exact ih.mp h1 i (by omega)
    · intro h
      exact ⟨(), ih.mpr (fun i hi => h i (by omega)), h n (by omega)⟩

theorem mapN_isOk {n : Nat} {f : Nat → R α} (h : ∀ i, i < n → IsOk (f i)) : IsOk (mapN n f) := by
  induction n with
  | zero => exact ⟨[], rfl⟩
  | succ n ih =>
    obtain ⟨ys, hy⟩ := ih (fun i hi => h i (by omega))
    obtain ⟨x, hx⟩ := h n (by omega)
    exact ⟨ys ++ [x], by rw [mapN_succ, hy, hx]; rfl⟩

/-- The (start, stop) pairs accepted by the validity kernel. -/
def GoodPair (start stop : Int) (n : Nat) : Prop := start = stop ∨ (0 ≤ start ∧ start ≤ stop ∧ stop ≤ n)

theorem checkStartStop_ok {start stop : Int} {n : Nat} (h : GoodPair start stop n) :
    ∃ s t : Nat, checkStartStop start stop n = ok ((s : Int), (t : Int)) ∧ s ≤ t ∧ t ≤ n := by
  unfold checkStartStop
  by_cases he : start = stop
  · exact ⟨0, 0, by simp [he], by omega, by omega⟩
  · rcases h with h | ⟨h0, h1, h2⟩
    · exact absurd h he
    · refine ⟨start.toNat, stop.toNat, ?_, by omega, by omega⟩
      simp only [he, if_false]
      rw [if_neg (by omega), if_neg (by omega), if_neg (by omega)]
      congr 2 <;> omega

/-- Inverse: what a successful check returns. -/
theorem checkStartStop_inv {start stop : Int} {n : Nat} {st : Int × Int}
    (h : checkStartStop start stop n = ok st) :
    ∃ s t : Nat, st = ((s : Int), (t : Int)) ∧ s ≤ t ∧ t ≤ n ∧ (t : Int) - s = stop - start ∧
      (start ≠ stop → start = s ∧ stop = t) := by
  unfold checkStartStop at h
  by_cases he : start = stop
  · have hn : ¬ ((n : Int) < 0) := by omega
    simp [he, hn] at h
    exact ⟨0, 0, by simp [← h], by omega, by omega, by omega, by intro hh; exact absurd he hh⟩
  · simp only [he, if_false] at h
    split at h
    · simp at h
    split at h
    · simp at h
    split at h
    · simp at h
    · simp at h
      refine ⟨start.toNat, stop.toNat, ?_, by omega, by omega, by omega, by intro _; omega⟩
      rw [← h]; congr 1 <;> omega

theorem checkIndex_ok {b : Bool} {j : Int} {n : Nat} (h : j < n) (h0 : b = false → 0 ≤ j) :
    ∃ o, checkIndex b j n = ok o ∧ ∀ k, o = some k → k < n ∧ j = k := by
  unfold checkIndex
  by_cases hj : j < 0
  · cases b with
    | false => exact absurd (h0 rfl) (by omega)
    | true => exact ⟨none, by simp [hj], by intro k hk; cases hk⟩
  · refine ⟨some j.toNat, ?_, ?_⟩
    · rw [if_neg hj, if_neg (by omega)]
    · intro k hk; injection hk with hk; omega

namespace Content

theorem ListArray_validity_ok {starts stops : List Int} {length lencontent : Nat}
    (h1 : length ≤ starts.length) (h2 : length ≤ stops.length) :
    ListArray_validity starts stops length lencontent = ok () ↔
      ∀ i (h : i < length), GoodPair (starts[i]'(by omega)) (stops[i]'(by omega)) lencontent := by
  unfold ListArray_validity
  rw [forN_unit]
  constructor
  · intro h i hi
    have := h i hi
    rw [rd_nat_ok (by omega), bind_ok, rd_nat_ok (by omega), bind_ok] at this
    unfold GoodPair
    split at this
    · split at this
      · simp at this
      split at this
      · simp at this
      split at this
      · simp at this
      · right; omega
    · left; omega
  · intro h i hi
    have := h i hi
    rw [rd_nat_ok (by omega), bind_ok, rd_nat_ok (by omega), bind_ok]
    split
    · rcases this with h | ⟨ha, hb, hc⟩
      · contradiction
      · rw [if_neg (by omega), if_neg (by omega), if_neg (by omega)]
    · rfl

theorem IndexedArray_validity_ok {index : List Int} {lencontent : Nat} {isoption : Bool} :
    IndexedArray_validity index index.length lencontent isoption = ok () ↔
      ∀ i (h : i < index.length), index[i] < lencontent ∧ (isoption = false → 0 ≤ index[i]) := by
  unfold IndexedArray_validity
  rw [forN_unit]
  constructor
  · intro h i hi
    have := h i hi
    rw [rd_nat_ok hi, bind_ok] at this
    split at this
    · simp at this
    split at this
    · simp at this
    · rename_i h1 h2
      refine ⟨by omega, ?_⟩
      intro hb
      simp [hb] at h1; exact h1
  · intro h i hi
    obtain ⟨h1, h2⟩ := h i hi
    rw [rd_nat_ok hi, bind_ok, if_neg, if_neg (by omega)]
    rintro ⟨hb, hc⟩
    have := h2 (by simpa using hb)
    omega

theorem UnionArray_validity_ok {tags index : List Int} {cs : List Content}
    (hl : tags.length ≤ index.length) :
    UnionArray_validity tags index tags.length cs.length (cs.map len) = ok () ↔
      ∀ i (h : i < tags.length), 0 ≤ tags[i] ∧ ∃ (ht : tags[i].toNat < cs.length),
        0 ≤ index[i] ∧ index[i] < (cs[tags[i].toNat]).len := by
  unfold UnionArray_validity
  rw [forN_unit]
  constructor
  · intro h i hi
    have := h i hi
    rw [rd_nat_ok hi, bind_ok, rd_nat_ok (by omega), bind_ok] at this
    split at this
    · simp at this
    split at this
    · simp at this
    split at this
    · simp at this
    · rename_i h1 h2 h3
      have ht : tags[i].toNat < cs.length := by omega
      rw [rd_ok (by omega) (by simp; omega), bind_ok] at this
      split at this
      · simp at this
      · rename_i h4
        refine ⟨by omega, ht, by omega, ?_⟩
        simpa using h4
  · intro h i hi
    obtain ⟨h1, h2, h3, h4⟩ := h i hi
    rw [rd_nat_ok hi, bind_ok, rd_nat_ok (by omega), bind_ok, if_neg (by omega),
      if_neg (by omega), if_neg (by omega), rd_ok (by omega) (by simp; omega), bind_ok, if_neg]
    simpa using h4

theorem validityAll_ok {cs : List Content} :
    validityAll cs = ok () ↔ ∀ c ∈ cs, c.validity = ok () := by
  induction cs with
  | nil => simp [validityAll]
  | cons c cs ih =>
    simp only [validityAll, bind_eq_ok, ih]
    constructor
    · rintro ⟨⟨⟩, h1, h2⟩ d hd
      cases hd with
      | head => exact h1
      | tail _ h => exact h2 d h
    · intro h
      exact ⟨(), h c List.mem_cons_self, fun d hd => h d (List.mem_cons_of_mem _ hd)⟩

theorem valNth_eq {cs : List Content} {t : Nat} (ht : t < cs.length) (j : Int) :
    valNth cs t j = if ¬ (0 ≤ j ∧ j < (cs[t]).len) then err "index[i] > len(content(tag))"
      else (cs[t]).val j.toNat := by
  induction cs generalizing t with
  | nil => simp at ht
  | cons c cs ih =>
    cases t with
    | zero => simp [valNth]
    | succ t => simp only [valNth, List.getElem_cons_succ]; exact ih (by simpa using ht)

theorem valFields_isOk {cs : List Content} {i : Nat} (h : ∀ c ∈ cs, IsOk (c.val i)) :
    ∃ vs, valFields cs i = ok vs ∧ vs.length = cs.length := by
  induction cs with
  | nil => exact ⟨[], rfl, rfl⟩
  | cons c cs ih =>
    obtain ⟨v, hv⟩ := h c List.mem_cons_self
    obtain ⟨vs, hvs, hl⟩ := ih (fun d hd => h d (List.mem_cons_of_mem _ hd))
    exact ⟨v :: vs, by simp only [valFields]; rw [hv, bind_ok, hvs, bind_ok], by simp [hl]⟩

theorem stringContentOk_inv {k : ArrKind} {c : Content} (h : stringContentOk k c = true) :
    ∃ p data, c = numpy p .uint8 data ∧ p.arr = k := by
  cases c <;> simp [stringContentOk] at h
  exact ⟨_, _, by rw [h.2], h.1⟩

theorem numpy_val_ok {p : Params} {dt : DType} {data : List Atom} {i : Nat} (h : i < data.length) :
    (numpy p dt data).val i = ok (.atom data[i]) := by
  simp only [val]; rw [rd_nat_ok h, bind_ok]

/-- A list node with a string parameter that passes the check contains plain numbers. -/
theorem paramsOkList_content {p : Params} {c : Content} {rest : R Unit}
    (h1 : paramsOkList p c = ok ())
    (h2 : (if p.arr = .string ∨ p.arr = .bytestring then ok () else rest) = ok ()) :
    ((p.arr = .string ∨ p.arr = .bytestring) ∧ ∃ p' data, c = numpy p' .uint8 data ∧
      (p.arr = .string → p'.arr = .char) ∧ (p.arr = .bytestring → p'.arr = .byte)) ∨
    (p.arr = .none ∧ rest = ok ()) := by
  unfold paramsOkList at h1
  cases hp : p.arr <;> simp [hp] at h1 h2 ⊢
  · exact h2
  · obtain ⟨p', data, rfl, hk⟩ := stringContentOk_inv h1
    exact ⟨p', ⟨data, rfl⟩, hk⟩
  · obtain ⟨p', data, rfl, hk⟩ := stringContentOk_inv h1
    exact ⟨p', ⟨data, rfl⟩, hk⟩

/-- List elements of a valid node. -/
theorem list_elem_ok {p : Params} {c : Content} {start stop : Int} (hg : GoodPair start stop c.len)
    (hc : ∀ i, i < c.len → IsOk (c.val i)) :
    IsOk (checkStartStop start stop c.len >>= fun st =>
      mapN (st.2 - st.1).toNat (fun k => c.val (st.1.toNat + k)) >>= fun vs => ok (wrapList p vs)) := by
  obtain ⟨s, t, h1, h2, h3⟩ := checkStartStop_ok hg
  rw [h1, bind_ok]
  obtain ⟨vs, hvs⟩ := mapN_isOk (n := ((t : Int) - s).toNat)
    (f := fun k => c.val ((s : Int).toNat + k)) (fun k hk => hc _ (by omega))
  exact ⟨wrapList p vs, by simp only; rw [hvs, bind_ok]⟩

/-- **Valid arrays are readable.** -/
theorem valid_readable {c : Content} (h : c.validity = ok ()) :
    c.WF ∧ ∀ i, i < c.len → IsOk (c.val i) := by
  induction c using induct with
  | empty p => exact ⟨trivial, fun i hi => by simp [len] at hi⟩
  | numpy p dt data => exact ⟨trivial, fun i hi => ⟨_, numpy_val_ok hi⟩⟩
  | regular p c size zeros ih =>
    simp only [validity, bind_eq_ok] at h
    obtain ⟨⟨⟩, h1, h2⟩ := h
    have hc : c.WF ∧ ∀ i, i < c.len → IsOk (c.val i) := by
      rcases paramsOkList_content h1 h2 with ⟨_, p', data, rfl, _⟩ | ⟨_, h2⟩
      · exact ⟨trivial, fun i hi => ⟨_, numpy_val_ok hi⟩⟩
      · exact ih h2
    refine ⟨hc.1, ?_⟩
    intro i hi
    simp only [len] at hi
    simp only [val]
    have : IsOk (mapN size (fun k => c.val (i * size + k))) := by
      apply mapN_isOk
      intro k hk
      rw [if_pos (by omega)] at hi
      have : (i + 1) * size ≤ c.len := (Nat.le_div_iff_mul_le (by omega)).mp hi
      exact hc.2 _ (by rw [Nat.add_mul] at this; omega)
    obtain ⟨vs, hv⟩ := this
    exact ⟨_, by rw [hv, bind_ok]⟩
  | listArray p starts stops c ih =>
    simp only [validity, bind_eq_ok] at h
    obtain ⟨⟨⟩, h1, h2⟩ := h
    split at h2
    · simp at h2
    rename_i hl
    obtain ⟨⟨⟩, h2, h3⟩ := bind_eq_ok.mp h2
    have hc : c.WF ∧ ∀ i, i < c.len → IsOk (c.val i) := by
      rcases paramsOkList_content h1 h3 with ⟨_, p', data, rfl, _⟩ | ⟨_, h2⟩
      · exact ⟨trivial, fun i hi => ⟨_, numpy_val_ok hi⟩⟩
      · exact ih h2
    rw [ListArray_validity_ok (by omega) (by omega)] at h2
    refine ⟨⟨by omega, hc.1⟩, ?_⟩
    intro i hi
    simp only [len] at hi
    simp only [val]
    rw [rd_nat_ok hi, bind_ok, rd_nat_ok (by omega), bind_ok]
    exact list_elem_ok (h2 i hi) hc.2
  | listOffset p offsets c ih =>
    simp only [validity, bind_eq_ok] at h
    obtain ⟨⟨⟩, h1, h2⟩ := h
    split at h2
    · simp at h2
    rename_i hl
    obtain ⟨⟨⟩, h2, h3⟩ := bind_eq_ok.mp h2
    have hc : c.WF ∧ ∀ i, i < c.len → IsOk (c.val i) := by
      rcases paramsOkList_content h1 h3 with ⟨_, p', data, rfl, _⟩ | ⟨_, h2⟩
      · exact ⟨trivial, fun i hi => ⟨_, numpy_val_ok hi⟩⟩
      · exact ih h2
    rw [ListArray_validity_ok (by simp [makeStarts]) (by simp [makeStops])] at h2
    refine ⟨⟨by omega, hc.1⟩, ?_⟩
    intro i hi
    simp only [len] at hi
    simp only [val]
    rw [rd_nat_ok (by omega), bind_ok, rd_nat_ok (by omega), bind_ok]
    have := h2 i hi
    simp only [makeStarts, makeStops, List.getElem_take, List.getElem_drop] at this
    have e : 1 + i = i + 1 := by omega
    simp only [e] at this
    exact list_elem_ok this hc.2
  | indexed p index c ih =>
    simp only [validity, bind_eq_ok] at h
    obtain ⟨⟨⟩, h1, ⟨⟩, h2, ⟨⟩, h3, h4⟩ := h
    have hc := ih h4
    rw [IndexedArray_validity_ok] at h2
    refine ⟨hc.1, ?_⟩
    intro i hi
    simp only [len] at hi
    simp only [val]
    rw [rd_nat_ok hi, bind_ok]
    obtain ⟨o, ho, hk⟩ := checkIndex_ok (b := false) (h2 i hi).1 (h2 i hi).2
    rw [ho, bind_ok]
    cases o with
    | none => exact ⟨_, rfl⟩
    | some k => exact hc.2 k (hk k rfl).1
  | indexedOption p index c ih =>
    simp only [validity, bind_eq_ok] at h
    obtain ⟨⟨⟩, h1, ⟨⟩, h2, ⟨⟩, h3, h4⟩ := h
    have hc := ih h4
    rw [IndexedArray_validity_ok] at h2
    refine ⟨hc.1, ?_⟩
    intro i hi
    simp only [len] at hi
    simp only [val]
    rw [rd_nat_ok hi, bind_ok]
    obtain ⟨o, ho, hk⟩ := checkIndex_ok (b := true) (h2 i hi).1 (h2 i hi).2
    rw [ho, bind_ok]
    cases o with
    | none => exact ⟨_, rfl⟩
    | some k => exact hc.2 k (hk k rfl).1
  | byteMasked p mask vw c ih =>
    simp only [validity, bind_eq_ok] at h
    obtain ⟨⟨⟩, h1, h2⟩ := h
    split at h2
    · simp at h2
    obtain ⟨⟨⟩, h2, h3⟩ := bind_eq_ok.mp h2
    have hc := ih h3
    refine ⟨⟨by omega, hc.1⟩, ?_⟩
    intro i hi
    simp only [len] at hi
    simp only [val]
    rw [rd_nat_ok hi, bind_ok]
    split
    · exact hc.2 i (by omega)
    · exact ⟨_, rfl⟩
  | bitMasked p mask vw length lsb c ih =>
    simp only [validity, bind_eq_ok] at h
    obtain ⟨⟨⟩, h1, h2⟩ := h
    split at h2
    · simp at h2
    split at h2
    · simp at h2
    obtain ⟨⟨⟩, h2, h3⟩ := bind_eq_ok.mp h2
    have hc := ih h3
    refine ⟨⟨by omega, by omega, hc.1⟩, ?_⟩
    intro i hi
    simp only [len] at hi
    simp only [val]
    rw [bitAt_eq (by omega), bind_ok]
    split
    · exact hc.2 i (by omega)
    · exact ⟨_, rfl⟩
  | unmasked p c ih =>
    simp only [validity, bind_eq_ok] at h
    obtain ⟨⟨⟩, h1, ⟨⟩, h2, h3⟩ := h
    exact ih h3
  | record p keys cs length ih =>
    simp only [validity, bind_eq_ok] at h
    obtain ⟨⟨⟩, h1, h2⟩ := h
    split at h2
    · simp at h2
    rename_i hl
    simp only [List.any_eq_true, decide_eq_true_eq, not_exists, not_and, not_lt] at hl
    rw [validityAll_ok] at h2
    simp only [WF, WFAll_iff]
    refine ⟨⟨hl, fun c hc => (ih c hc (h2 c hc)).1⟩, ?_⟩
    intro i hi
    simp only [len] at hi
    simp only [val]
    obtain ⟨vs, hv, _⟩ := valFields_isOk (cs := cs) (i := i)
      (fun c hc => (ih c hc (h2 c hc)).2 i (lt_of_lt_of_le hi (hl c hc)))
    exact ⟨_, by rw [hv, bind_ok]⟩
  | union p tags index cs ih =>
    simp only [validity, bind_eq_ok] at h
    obtain ⟨⟨⟩, h1, h2⟩ := h
    split at h2
    · simp at h2
    split at h2
    · simp at h2
    rename_i hl
    obtain ⟨⟨⟩, h2, h3⟩ := bind_eq_ok.mp h2
    rw [validityAll_ok] at h3
    rw [UnionArray_validity_ok (by omega)] at h2
    simp only [WF, WFAll_iff]
    refine ⟨⟨by omega, fun c hc => (ih c hc (h3 c hc)).1⟩, ?_⟩
    intro i hi
    simp only [len] at hi
    simp only [val]
    obtain ⟨g1, g2, g3, g4⟩ := h2 i hi
    rw [rd_nat_ok hi, bind_ok, rd_nat_ok (by omega), bind_ok, checkTag, if_neg (by omega), bind_ok]
    simp only
    rw [valNth_eq g2, if_neg (by omega)]
    have hm := List.getElem_mem g2
    exact (ih _ hm (h3 _ hm)).2 _ (by omega)

/-! ### The check itself is memory safe -/

theorem paramsOk_sat {p : Params} {b : Bool} : Sat (paramsOk p b) (fun _ => True) := by
  unfold paramsOk
  cases p.arr <;> simp
  split <;> simp

theorem paramsOkList_sat {p : Params} {c : Content} : Sat (paramsOkList p c) (fun _ => True) := by
  unfold paramsOkList
  cases p.arr <;> simp <;> split <;> simp

theorem nestedOk_sat {c : Content} : Sat (nestedOk c) (fun _ => True) := by
  unfold nestedOk; split <;> simp

theorem ListArray_validity_sat {starts stops : List Int} {length lencontent : Nat}
    (h1 : length ≤ starts.length) (h2 : length ≤ stops.length) :
    Sat (ListArray_validity starts stops length lencontent) (fun _ => True) := by
  unfold ListArray_validity
  apply forN_sat (fun _ _ => True) trivial
  intro i hi _ _
  rw [rd_nat_ok (by omega), bind_ok, rd_nat_ok (by omega), bind_ok]
  split
  · split
    · trivial
    split
    · trivial
    split <;> trivial
  · trivial

theorem IndexedArray_validity_sat {index : List Int} {lencontent : Nat} {b : Bool} :
    Sat (IndexedArray_validity index index.length lencontent b) (fun _ => True) := by
  unfold IndexedArray_validity
  apply forN_sat (fun _ _ => True) trivial
  intro i hi _ _
  rw [rd_nat_ok (by omega), bind_ok]
  split
  · trivial
  split <;> trivial

theorem UnionArray_validity_sat {tags index : List Int} {cs : List Content}
    (hl : tags.length ≤ index.length) :
    Sat (UnionArray_validity tags index tags.length cs.length (cs.map len)) (fun _ => True) := by
  unfold UnionArray_validity
  apply forN_sat (fun _ _ => True) trivial
  intro i hi _ _
  rw [rd_nat_ok (by omega), bind_ok, rd_nat_ok (by omega), bind_ok]
  split
  · trivial
  split
  · trivial
  split
  · trivial
  · rw [rd_ok (by omega) (by simp; omega), bind_ok]
    split <;> trivial

/-- Running the validity check never reads outside a buffer, whatever the buffers hold. -/
theorem validity_sat (c : Content) : Sat c.validity (fun _ => True) := by
  have hall : ∀ cs : List Content, (∀ c ∈ cs, Sat c.validity (fun _ => True)) →
      Sat (validityAll cs) (fun _ => True) := by
    intro cs h
    induction cs with
    | nil => trivial
    | cons c cs ih =>
      simp only [validityAll]
      exact (h c List.mem_cons_self).bind
        (fun _ _ => ih (fun d hd => h d (List.mem_cons_of_mem _ hd)))
  induction c using induct with
  | empty p => exact paramsOk_sat
  | numpy p dt data => exact paramsOk_sat
  | regular p c size zeros ih =>
    refine paramsOkList_sat.bind fun _ _ => ?_
    split
    · trivial
    · exact ih
  | listArray p starts stops c ih =>
    refine paramsOkList_sat.bind fun _ _ => ?_
    split
    · trivial
    · refine (ListArray_validity_sat (by omega) (by omega)).bind fun _ _ => ?_
      split
      · trivial
      · exact ih
  | listOffset p offsets c ih =>
    refine paramsOkList_sat.bind fun _ _ => ?_
    split
    · trivial
    · refine (ListArray_validity_sat (by simp [makeStarts]) (by simp [makeStops])).bind fun _ _ => ?_
      split
      · trivial
      · exact ih
  | indexed p index c ih =>
    exact paramsOk_sat.bind fun _ _ => IndexedArray_validity_sat.bind fun _ _ =>
      nestedOk_sat.bind fun _ _ => ih
  | indexedOption p index c ih =>
    exact paramsOk_sat.bind fun _ _ => IndexedArray_validity_sat.bind fun _ _ =>
      nestedOk_sat.bind fun _ _ => ih
  | byteMasked p mask vw c ih =>
    refine paramsOk_sat.bind fun _ _ => ?_
    split
    · trivial
    · exact nestedOk_sat.bind fun _ _ => ih
  | bitMasked p mask vw length lsb c ih =>
    refine paramsOk_sat.bind fun _ _ => ?_
    split
    · trivial
    split
    · trivial
    · exact nestedOk_sat.bind fun _ _ => ih
  | unmasked p c ih => exact paramsOk_sat.bind fun _ _ => nestedOk_sat.bind fun _ _ => ih
  | record p keys cs length ih =>
    refine paramsOk_sat.bind fun _ _ => ?_
    split
    · trivial
    · exact hall cs ih
  | union p tags index cs ih =>
    refine paramsOk_sat.bind fun _ _ => ?_
    split
    · trivial
    split
    · trivial
    · exact (UnionArray_validity_sat (by omega)).bind fun _ _ => hall cs ih

/-! ### `getitem_at_nowrap` returns an object that shows the element -/

end Content

/-- What `to_list` shows for the object returned by `getitem_at_nowrap`: a sub-array whose
characters or bytes are marked as such is shown as text or bytes
(src/awkward/operations/convert.py `to_list`). -/
def Item.toVal : Item → R Val
  | .none => ok .null
  | .scalar a => ok (.atom a)
  | .record c i => c.val i
  | .array c => c.toList >>= fun vs =>
    match c.params.arr with
    | .char => ok (.str vs)
    | .byte => ok (.bytes vs)
    | _ => ok (.list vs)

namespace Content

theorem validity_arr {c : Content} (h : c.validity = ok ()) :
    c.params.arr ≠ .char ∧ c.params.arr ≠ .byte := by
  have hp : ∀ {p : Params} {b : Bool}, paramsOk p b = ok () → p.arr ≠ .char ∧ p.arr ≠ .byte := by
    intro p b h
    unfold paramsOk at h
    cases hk : p.arr <;> simp [hk] at h ⊢
  have hl : ∀ {p : Params} {c : Content}, paramsOkList p c = ok () → p.arr ≠ .char ∧ p.arr ≠ .byte := by
    intro p c h
    unfold paramsOkList at h
    cases hk : p.arr <;> simp [hk] at h ⊢
  cases c <;> simp only [validity, params, bind_eq_ok] at h ⊢
  case empty => exact hp h
  case numpy => exact hp h
  case regular => obtain ⟨⟨⟩, h, _⟩ := h; exact hl h
  case listArray => obtain ⟨⟨⟩, h, _⟩ := h; exact hl h
  case listOffset => obtain ⟨⟨⟩, h, _⟩ := h; exact hl h
  all_goals obtain ⟨⟨⟩, h, _⟩ := h; exact hp h

/-- An element of a list node: the sub-array shows what `val` says. -/
theorem list_item {p : Params} {c : Content} (hwf : c.WF)
    (hp : ((p.arr = .string ∨ p.arr = .bytestring) ∧ ∃ p' data, c = numpy p' .uint8 data ∧
      (p.arr = .string → p'.arr = .char) ∧ (p.arr = .bytestring → p'.arr = .byte)) ∨
      (p.arr = .none ∧ c.validity = ok ()))
    {s t : Nat} (hst : s ≤ t) (ht : t ≤ c.len) :
    ∃ c', c.range s t = ok c' ∧ Item.toVal (.array c') =
      (mapN (t - s) (fun k => c.val (s + k)) >>= fun vs => ok (wrapList p vs)) := by
  obtain ⟨c', h1, h2, h3, h4⟩ := range_ok hwf hst ht
  refine ⟨c', h1, ?_⟩
  simp only [Item.toVal]
  rw [h3.toList, h4]
  apply bind_congr'
  intro vs _
  rcases hp with ⟨hp, p', data, rfl, hs, hb⟩ | ⟨hp, hv⟩
  · rcases hp with hp | hp
    · simp [params, hs hp, wrapList, hp]
    · simp [params, hb hp, wrapList, hp]
  · obtain ⟨ha, hb⟩ := validity_arr hv
    simp only [wrapList, hp]

theorem getitemAtNth_eq {cs : List Content} {t : Nat} (ht : t < cs.length) (j : Int) :
    getitemAtNth cs t j = if ¬ (0 ≤ j ∧ j < (cs[t]).len) then err "index[i] > len(content(tag))"
      else (cs[t]).getitemAtNowrap j.toNat := by
  induction cs generalizing t with
  | nil => simp at ht
  | cons c cs ih =>
    cases t with
    | zero => simp [getitemAtNth]
    | succ t => simp only [getitemAtNth, List.getElem_cons_succ]; exact ih (by simpa using ht)

theorem getitemAtNowrap_ok {c : Content} (h : c.validity = ok ()) {i : Nat} (hi : i < c.len) :
    ∃ it, c.getitemAtNowrap i = ok it ∧ it.toVal = c.val i := by
  induction c using induct generalizing i with
  | empty p => simp [len] at hi
  | numpy p dt data =>
    simp only [len] at hi
    exact ⟨.scalar data[i], by simp only [getitemAtNowrap]; rw [rd_nat_ok hi, bind_ok],
      by rw [numpy_val_ok hi]; rfl⟩
  | regular p c size zeros ih =>
    have hwf : c.WF := (valid_readable h).1
    simp only [validity, bind_eq_ok] at h
    obtain ⟨⟨⟩, h1, h2⟩ := h
    have hp := paramsOkList_content h1 h2
    simp only [len] at hi
    have hb : (i + 1) * size ≤ c.len := by
      by_cases hs : size = 0
      · simp [hs]
      · rw [if_pos hs] at hi
        exact (Nat.le_div_iff_mul_le (by omega)).mp hi
    obtain ⟨c', g1, g2⟩ := list_item hwf hp (s := i * size) (t := (i + 1) * size)
      (Nat.mul_le_mul_right _ (by omega)) hb
    refine ⟨.array c', ?_, ?_⟩
    · simp only [getitemAtNowrap]
      push_cast at g1
      rw [g1, bind_ok]
    · rw [g2]
      simp only [val]
      have : (i + 1) * size - i * size = size := by rw [Nat.add_mul]; omega
      rw [this]
  | listArray p starts stops c ih =>
    have hwf := (valid_readable h).1
    simp only [validity, bind_eq_ok] at h
    obtain ⟨⟨⟩, h1, h2⟩ := h
    split at h2
    · simp at h2
    obtain ⟨⟨⟩, h2, h3⟩ := bind_eq_ok.mp h2
    have hp := paramsOkList_content h1 h3
    rw [ListArray_validity_ok (by omega) (by omega)] at h2
    simp only [len] at hi
    simp only [getitemAtNowrap, val]
    rw [rd_nat_ok hi, bind_ok, bind_ok, rd_nat_ok (by omega), bind_ok, bind_ok]
    obtain ⟨s, t, k1, k2, k3⟩ := checkStartStop_ok (h2 i hi)
    rw [k1, bind_ok, bind_ok]
    obtain ⟨c', g1, g2⟩ := list_item hwf.2 hp k2 k3
    refine ⟨.array c', by simp only; rw [g1, bind_ok], ?_⟩
    rw [g2]
    simp only [Int.toNat_natCast]
    have : ((t : Int) - s).toNat = t - s := by omega
    rw [this]
  | listOffset p offsets c ih =>
    have hwf := (valid_readable h).1
    simp only [validity, bind_eq_ok] at h
    obtain ⟨⟨⟩, h1, h2⟩ := h
    split at h2
    · simp at h2
    obtain ⟨⟨⟩, h2, h3⟩ := bind_eq_ok.mp h2
    have hp := paramsOkList_content h1 h3
    rw [ListArray_validity_ok (by simp [makeStarts]) (by simp [makeStops])] at h2
    simp only [len] at hi
    simp only [getitemAtNowrap, val]
    rw [rd_nat_ok (by omega), bind_ok, bind_ok, rd_nat_ok (by omega), bind_ok, bind_ok]
    have h2i := h2 i hi
    simp only [makeStarts, makeStops, List.getElem_take, List.getElem_drop] at h2i
    have e : 1 + i = i + 1 := by omega
    simp only [e] at h2i
    obtain ⟨s, t, k1, k2, k3⟩ := checkStartStop_ok h2i
    rw [k1, bind_ok, bind_ok]
    obtain ⟨c', g1, g2⟩ := list_item hwf.2 hp k2 k3
    refine ⟨.array c', by simp only; rw [g1, bind_ok], ?_⟩
    rw [g2]
    simp only [Int.toNat_natCast]
    have : ((t : Int) - s).toNat = t - s := by omega
    rw [this]
  | indexed p index c ih =>
    simp only [validity, bind_eq_ok] at h
    obtain ⟨⟨⟩, h1, ⟨⟩, h2, ⟨⟩, h3, h4⟩ := h
    rw [IndexedArray_validity_ok] at h2
    simp only [len] at hi
    simp only [val, getitemAtNowrap]
    rw [rd_nat_ok hi, bind_ok, bind_ok]
    obtain ⟨o, ho, hk⟩ := checkIndex_ok (b := false) (h2 i hi).1 (h2 i hi).2
    rw [ho, bind_ok, bind_ok]
    cases o with
    | none => exact ⟨.none, rfl, rfl⟩
    | some k => exact ih h4 (hk k rfl).1
  | indexedOption p index c ih =>
    simp only [validity, bind_eq_ok] at h
    obtain ⟨⟨⟩, h1, ⟨⟩, h2, ⟨⟩, h3, h4⟩ := h
    rw [IndexedArray_validity_ok] at h2
    simp only [len] at hi
    simp only [val, getitemAtNowrap]
    rw [rd_nat_ok hi, bind_ok, bind_ok]
    obtain ⟨o, ho, hk⟩ := checkIndex_ok (b := true) (h2 i hi).1 (h2 i hi).2
    rw [ho, bind_ok, bind_ok]
    cases o with
    | none => exact ⟨.none, rfl, rfl⟩
    | some k => exact ih h4 (hk k rfl).1
  | byteMasked p mask vw c ih =>
    simp only [validity, bind_eq_ok] at h
    obtain ⟨⟨⟩, h1, h2⟩ := h
    split at h2
    · simp at h2
    obtain ⟨⟨⟩, h2, h3⟩ := bind_eq_ok.mp h2
    simp only [len] at hi
    simp only [val, getitemAtNowrap]
    rw [rd_nat_ok hi, bind_ok, bind_ok]
    split
    · exact ih h3 (by omega)
    · exact ⟨.none, rfl, rfl⟩
  | bitMasked p mask vw length lsb c ih =>
    simp only [validity, bind_eq_ok] at h
    obtain ⟨⟨⟩, h1, h2⟩ := h
    split at h2
    · simp at h2
    split at h2
    · simp at h2
    obtain ⟨⟨⟩, h2, h3⟩ := bind_eq_ok.mp h2
    simp only [len] at hi
    simp only [val, getitemAtNowrap]
    rw [bitAt_eq (by omega), bind_ok, bind_ok]
    split
    · exact ih h3 (by omega)
    · exact ⟨.none, rfl, rfl⟩
  | unmasked p c ih =>
    simp only [validity, bind_eq_ok] at h
    obtain ⟨⟨⟩, h1, ⟨⟩, h2, h3⟩ := h
    exact ih h3 hi
  | record p keys cs length ih =>
    exact ⟨.record (record p keys cs length) i, by simp only [getitemAtNowrap], rfl⟩
  | union p tags index cs ih =>
    simp only [validity, bind_eq_ok] at h
    obtain ⟨⟨⟩, h1, h2⟩ := h
    split at h2
    · simp at h2
    split at h2
    · simp at h2
    obtain ⟨⟨⟩, h2, h3⟩ := bind_eq_ok.mp h2
    rw [validityAll_ok] at h3
    rw [UnionArray_validity_ok (by omega)] at h2
    simp only [len] at hi
    simp only [val, getitemAtNowrap]
    obtain ⟨g1, g2, g3, g4⟩ := h2 i hi
    rw [rd_nat_ok hi, bind_ok, bind_ok, rd_nat_ok (by omega), bind_ok, bind_ok, checkTag,
      if_neg (by omega), bind_ok, bind_ok]
    simp only
    rw [valNth_eq g2, getitemAtNth_eq g2, if_neg (by omega), if_neg (by omega)]
    have hm := List.getElem_mem g2
    exact ih _ hm (h3 _ hm) (by omega)

end Content
end Awk
