import Verif.Model.Size
import Verif.Spec.Size
import Verif.Lemmas.ValD
/-
Lemmas for `ak.size`.
-/

namespace Awk
open R

theorem sizesSame_ok {l : List (List (Option Nat))} {s : List (Option Nat)} (h : sizesSame l = ok s) :
    ∀ t ∈ l, t = s := by
  cases l with
  | nil => cases h
  | cons x xs =>
    simp only [sizesSame] at h
    split at h
    · rename_i ha
      cases h
      intro t ht
      rcases List.mem_cons.mp ht with rfl | ht
      · rfl
      · have := List.all_eq_true.mp ha t ht
        simpa using this
    · cases h

namespace Content

theorem sizesAll_ok {cs : List Content} {axis : Option Nat} {l : List (List (Option Nat))}
    (h : sizesAll cs axis = ok l) {c : Content} (hc : c ∈ cs) : ∃ s ∈ l, c.sizes axis = ok s := by
  induction cs generalizing l with
  | nil => cases hc
  | cons d ds ih =>
    simp only [sizesAll] at h
    obtain ⟨s, h1, h⟩ := bind_eq_ok.mp h
    obtain ⟨ss, h2, h⟩ := bind_eq_ok.mp h
    cases h
    rcases List.mem_cons.mp hc with rfl | hc
    · exact ⟨s, by simp, h1⟩
    · obtain ⟨t, ht, h3⟩ := ih h2 hc
      exact ⟨t, by simp [ht], h3⟩

theorem sizes_members {cs : List Content} {axis : Option Nat} {s : List (Option Nat)}
    (h : (sizesAll cs axis >>= sizesSame) = ok s) {c : Content} (hc : c ∈ cs) : c.sizes axis = ok s := by
  obtain ⟨l, h1, h2⟩ := bind_eq_ok.mp h
  obtain ⟨t, ht, h3⟩ := sizesAll_ok h1 hc
  rw [h3, sizesSame_ok h2 t ht]

theorem sizes_exists {cs : List Content} {axis : Option Nat} {s : List (Option Nat)}
    (h : (sizesAll cs axis >>= sizesSame) = ok s) : ∃ c, c ∈ cs := by
  cases cs with
  | nil => simp [sizesAll, sizesSame] at h
  | cons c cs => exact ⟨c, by simp⟩

theorem wrapList_rect {p : Params} {ds : List Nat} {vs : List Val} {n : Nat} (hn : vs.length = n)
    (h : ∀ v ∈ vs, Val.Rectilinear ds v) : Val.Rectilinear (n :: ds) (wrapList p vs) := by
  subst hn
  unfold wrapList
  split
  · exact .str h
  · exact .bytes h
  · exact .list h

theorem wrapList_listAt {p : Params} {vs l : List Val} {a : Nat} (h : Val.ListAt l a (wrapList p vs)) :
    (a = 0 ∧ l = vs) ∨ ∃ b, a = b + 1 ∧ ∃ v ∈ vs, Val.ListAt l b v := by
  unfold wrapList at h
  split at h
  · cases h; exact .inl ⟨rfl, rfl⟩
  · cases h; exact .inl ⟨rfl, rfl⟩
  · cases h with
    | list => exact .inl ⟨rfl, rfl⟩
    | deeper hv h => exact .inr ⟨_, rfl, _, hv, h⟩

theorem mkRecord_rect {keys : Option (List String)} {ds : List Nat} {vs : List Val}
    (h : ∀ v ∈ vs, Val.Rectilinear ds v) : Val.Rectilinear ds (mkRecord keys vs) := by
  unfold mkRecord
  split
  · exact .tuple h
  · exact .record (fun f hf => h _ (List.of_mem_zip hf).2)

theorem mkRecord_listAt {keys : Option (List String)} {vs l : List Val} {a : Nat}
    (h : Val.ListAt l a (mkRecord keys vs)) : ∃ v ∈ vs, Val.ListAt l a v := by
  unfold mkRecord at h
  split at h
  · cases h with
    | tuple hv h => exact ⟨_, hv, h⟩
  · cases h with
    | record hf h => exact ⟨_, (List.of_mem_zip hf).2, h⟩

theorem mem_seg_valD {c : Content} {s n : Nat} {v : Val} (h : v ∈ c.seg s n) : ∃ k, k < n ∧ v = c.valD (s + k) := by
  obtain ⟨k, hk, rfl⟩ := List.mem_iff_getElem.mp h
  rw [seg_getElem]
  exact ⟨k, by simpa using hk, rfl⟩

/-- What the sizes say about the values, if they are collected for `axis=None`. -/
theorem sizes_rect (c : Content) : c.Good → ∀ ds : List Nat, c.sizes none = ok (ds.map some) →
    ∀ i, i < c.len → Val.Rectilinear ds (c.valD i) := by
  induction c using induct with
  | empty p => intro _ _ _ i hi; exact absurd hi (by simp [len])
  | numpy p dt data =>
    intro _ ds h i hi
    simp only [len] at hi
    rw [valD_numpy hi]
    simp only [sizes, ok.injEq] at h
    have : ds = [] := by simpa using h.symm
    subst this
    exact .atom
  | regular p c size zeros ih =>
    intro hg ds h i hi
    have hc := good_regular.mp hg
    simp only [sizes] at h
    obtain ⟨ss, h1, h2⟩ := bind_eq_ok.mp h
    cases ds with
    | nil => simp at h2
    | cons d ds =>
      simp only [List.map_cons, ok.injEq, List.cons.injEq, Option.some.injEq] at h2
      obtain ⟨rfl, rfl⟩ := h2
      rw [valD_regular hc hi]
      refine wrapList_rect (by simp) (fun v hv => ?_)
      obtain ⟨k, hk, rfl⟩ := mem_seg_valD hv
      exact ih hc ds h1 _ (by have := regular_bound hi; omega)
  | listArray p starts stops c ih =>
    intro _ ds h
    simp only [sizes] at h
    obtain ⟨ss, h1, h2⟩ := bind_eq_ok.mp h
    cases ds <;> simp at h2
  | listOffset p offsets c ih =>
    intro _ ds h
    simp only [sizes] at h
    obtain ⟨ss, h1, h2⟩ := bind_eq_ok.mp h
    cases ds <;> simp at h2
  | indexed p index c ih =>
    intro hg ds h i hi
    obtain ⟨hc, hp⟩ := good_indexed.mp hg
    simp only [len] at hi
    rw [valD_indexed hg hi]
    exact ih hc ds h _ (by have := hp i hi; omega)
  | indexedOption p index c ih =>
    intro hg ds h i hi
    obtain ⟨hc, hp⟩ := good_indexedOption.mp hg
    simp only [len] at hi
    rw [valD_indexedOption hg hi]
    split
    · exact .null
    · exact ih hc ds h _ (by have := hp i hi; omega)
  | byteMasked p mask vw c ih =>
    intro hg ds h i hi
    obtain ⟨hl, hc⟩ := good_byteMasked.mp hg
    simp only [len] at hi
    rw [valD_byteMasked hg hi]
    split
    · exact ih hc ds h _ (by omega)
    · exact .null
  | bitMasked p mask vw length lsb c ih =>
    intro hg ds h i hi
    obtain ⟨_, hl, hc⟩ := good_bitMasked.mp hg
    simp only [len] at hi
    rw [valD_bitMasked hg hi]
    split
    · exact ih hc ds h _ (by omega)
    · exact .null
  | unmasked p c ih =>
    intro hg ds h i hi
    exact ih (good_unmasked.mp hg) ds h i hi
  | record p keys cs length ih =>
    intro hg ds h i hi
    obtain ⟨hl, hc⟩ := good_record.mp hg
    simp only [len] at hi
    rw [valD_record hg hi]
    refine mkRecord_rect (fun v hv => ?_)
    obtain ⟨c, hm, rfl⟩ := List.mem_map.mp hv
    exact ih c hm (hc c hm) ds (sizes_members h hm) i (by have := hl c hm; omega)
  | union p tags index cs ih =>
    intro hg ds h i hi
    obtain ⟨hl, hc, hp⟩ := good_union.mp hg
    simp only [len] at hi
    obtain ⟨g1, g2, g3, g4⟩ := hp i hi
    rw [valD_union hg hi (by omega) g2]
    have hm : cs[tags[i].toNat] ∈ cs := List.getElem_mem _
    exact ih _ hm (hc _ hm) ds (sizes_members h hm) _ (by omega)

/-- There are never more sizes than asked for. -/
theorem sizes_length (c : Content) : ∀ (a : Nat) (ss : List (Option Nat)), c.sizes (some a) = ok ss →
    ss.length ≤ a + 1 := by
  induction c using induct with
  | empty p => intro a ss h; cases h; simp
  | numpy p dt data => intro a ss h; cases h; simp
  | regular p c size zeros ih =>
    intro a ss h
    cases a with
    | zero => cases h; simp
    | succ a =>
      simp only [sizes] at h
      obtain ⟨s, h1, h2⟩ := bind_eq_ok.mp h
      cases h2
      simpa using ih a s h1
  | listArray p starts stops c ih =>
    intro a ss h
    cases a with
    | zero => cases h; simp
    | succ a =>
      simp only [sizes] at h
      obtain ⟨s, h1, h2⟩ := bind_eq_ok.mp h
      cases h2
      simpa using ih a s h1
  | listOffset p offsets c ih =>
    intro a ss h
    cases a with
    | zero => cases h; simp
    | succ a =>
      simp only [sizes] at h
      obtain ⟨s, h1, h2⟩ := bind_eq_ok.mp h
      cases h2
      simpa using ih a s h1
  | indexed p index c ih => exact ih
  | indexedOption p index c ih => exact ih
  | byteMasked p mask vw c ih => exact ih
  | bitMasked p mask vw length lsb c ih => exact ih
  | unmasked p c ih => exact ih
  | record p keys cs length ih =>
    intro a ss h
    obtain ⟨c, hc⟩ := sizes_exists h
    exact ih c hc a ss (sizes_members h hc)
  | union p tags index cs ih =>
    intro a ss h
    obtain ⟨c, hc⟩ := sizes_exists h
    exact ih c hc a ss (sizes_members h hc)

/-- What the sizes say about the lists at depth `a`. -/
theorem sizes_listAt (c : Content) : c.Good → ∀ (a : Nat) (ss : List (Option Nat)), c.sizes (some a) = ok ss →
    ∀ i, i < c.len → ∀ l, Val.ListAt l a (c.valD i) →
    ∃ o, ss[a]? = some o ∧ ∀ n, o = some n → l.length = n := by
  induction c using induct with
  | empty p => intro _ _ _ _ i hi; exact absurd hi (by simp [len])
  | numpy p dt data =>
    intro _ a ss h i hi l hl
    simp only [len] at hi
    rw [valD_numpy hi] at hl
    cases hl
  | regular p c size zeros ih =>
    intro hg a ss h i hi l hl
    have hc := good_regular.mp hg
    rw [valD_regular hc hi] at hl
    rcases wrapList_listAt hl with ⟨rfl, rfl⟩ | ⟨b, rfl, v, hv, hl⟩
    · cases h
      exact ⟨some size, rfl, by simp⟩
    · simp only [sizes] at h
      obtain ⟨s, h1, h2⟩ := bind_eq_ok.mp h
      cases h2
      obtain ⟨k, hk, rfl⟩ := mem_seg_valD hv
      simpa using ih hc b s h1 _ (by have := regular_bound hi; omega) l hl
  | listArray p starts stops c ih =>
    intro hg a ss h i hi l hl
    obtain ⟨hw, hc, hp⟩ := good_listArray.mp hg
    simp only [len] at hi
    rw [valD_listArray hg hi (by omega)] at hl
    rcases wrapList_listAt hl with ⟨rfl, rfl⟩ | ⟨b, rfl, v, hv, hl⟩
    · cases h
      exact ⟨none, rfl, by simp⟩
    · simp only [sizes] at h
      obtain ⟨s, h1, h2⟩ := bind_eq_ok.mp h
      cases h2
      obtain ⟨k, hk, rfl⟩ := mem_seg_valD hv
      simpa using ih hc b s h1 _ (by have := hp i hi; unfold GoodPair at this; omega) l hl
  | listOffset p offsets c ih =>
    intro hg a ss h i hi l hl
    obtain ⟨hw, hc, hp⟩ := good_listOffset.mp hg
    simp only [len] at hi
    have hi' : i + 1 < offsets.length := by omega
    rw [valD_listOffset hg hi'] at hl
    rcases wrapList_listAt hl with ⟨rfl, rfl⟩ | ⟨b, rfl, v, hv, hl⟩
    · cases h
      exact ⟨none, rfl, by simp⟩
    · simp only [sizes] at h
      obtain ⟨s, h1, h2⟩ := bind_eq_ok.mp h
      cases h2
      obtain ⟨k, hk, rfl⟩ := mem_seg_valD hv
      simpa using ih hc b s h1 _ (by have := hp i hi'; unfold GoodPair at this; omega) l hl
  | indexed p index c ih =>
    intro hg a ss h i hi l hl
    obtain ⟨hc, hp⟩ := good_indexed.mp hg
    simp only [len] at hi
    rw [valD_indexed hg hi] at hl
    exact ih hc a ss h _ (by have := hp i hi; omega) l hl
  | indexedOption p index c ih =>
    intro hg a ss h i hi l hl
    obtain ⟨hc, hp⟩ := good_indexedOption.mp hg
    simp only [len] at hi
    rw [valD_indexedOption hg hi] at hl
    split at hl
    · cases hl
    · exact ih hc a ss h _ (by have := hp i hi; omega) l hl
  | byteMasked p mask vw c ih =>
    intro hg a ss h i hi l hl
    obtain ⟨hw, hc⟩ := good_byteMasked.mp hg
    simp only [len] at hi
    rw [valD_byteMasked hg hi] at hl
    split at hl
    · exact ih hc a ss h _ (by omega) l hl
    · cases hl
  | bitMasked p mask vw length lsb c ih =>
    intro hg a ss h i hi l hl
    obtain ⟨_, hw, hc⟩ := good_bitMasked.mp hg
    simp only [len] at hi
    rw [valD_bitMasked hg hi] at hl
    split at hl
    · exact ih hc a ss h _ (by omega) l hl
    · cases hl
  | unmasked p c ih =>
    intro hg a ss h i hi l hl
    exact ih (good_unmasked.mp hg) a ss h i hi l hl
  | record p keys cs length ih =>
    intro hg a ss h i hi l hl
    obtain ⟨hw, hc⟩ := good_record.mp hg
    simp only [len] at hi
    rw [valD_record hg hi] at hl
    obtain ⟨v, hv, hl⟩ := mkRecord_listAt hl
    obtain ⟨c, hm, rfl⟩ := List.mem_map.mp hv
    exact ih c hm (hc c hm) a ss (sizes_members h hm) i (by have := hw c hm; omega) l hl
  | union p tags index cs ih =>
    intro hg a ss h i hi l hl
    obtain ⟨hw, hc, hp⟩ := good_union.mp hg
    simp only [len] at hi
    obtain ⟨g1, g2, g3, g4⟩ := hp i hi
    rw [valD_union hg hi (by omega) g2] at hl
    have hm : cs[tags[i].toNat] ∈ cs := List.getElem_mem _
    exact ih _ hm (hc _ hm) a ss (sizes_members h hm) _ (by omega) l hl

theorem sizesProduct_ok {ss : List (Option Nat)} {n : Nat} (h : sizesProduct ss = ok n) :
    ∃ ds : List Nat, ss = ds.map some ∧ n = ds.prod := by
  induction ss generalizing n with
  | nil => cases h; exact ⟨[], rfl, rfl⟩
  | cons s ss ih =>
    cases s with
    | none => cases h
    | some d =>
      simp only [sizesProduct] at h
      obtain ⟨m, h1, h2⟩ := bind_eq_ok.mp h
      cases h2
      obtain ⟨ds, rfl, rfl⟩ := ih h1
      exact ⟨d :: ds, rfl, by simp⟩

theorem sizesProduct_map (ds : List Nat) : sizesProduct (ds.map some) = ok ds.prod := by
  induction ds with
  | nil => rfl
  | cons d ds ih => simp [sizesProduct, ih]

theorem Boxlike.sizes {c : Content} (h : Boxlike c) : ∃ ds : List Nat, c.sizes none = ok (ds.map some) := by
  induction h with
  | numpy => exact ⟨[], rfl⟩
  | empty => exact ⟨[], rfl⟩
  | @regular p c size zeros h ih =>
    obtain ⟨ds, hd⟩ := ih
    exact ⟨size :: ds, by simp [Content.sizes, hd]⟩
  | indexed h ih => exact ih
  | indexedOption h ih => exact ih
  | byteMasked h ih => exact ih
  | bitMasked h ih => exact ih
  | unmasked h ih => exact ih

end Content

/-- A rectilinear value has as many numbers as the product of its dimensions. -/
theorem Val.Counted.rect {n : Nat} {v : Val} (h : Val.Counted n v) :
    ∀ ds, Val.Rectilinear ds v → n = ds.prod := by
  have key : ∀ n v, Val.Counted n v → (∀ ds, Val.Rectilinear ds v → n = ds.prod) ∧
      ∀ vs, v = .list vs → ∀ ds, (∀ x ∈ vs, Val.Rectilinear ds x) → n = vs.length * ds.prod := by
    intro n v h
    induction h with
    | atom =>
      refine ⟨fun ds h => ?_, fun vs h => (nomatch h)⟩
      cases h
      rfl
    | nil =>
      refine ⟨fun ds h => ?_, fun vs h => ?_⟩
      · cases h; simp
      · cases h; simp
    | @cons n m v vs hv h ih1 ih2 =>
      have h2 : ∀ ds, (∀ x ∈ v :: vs, Val.Rectilinear ds x) → n + m = (v :: vs).length * ds.prod := by
        intro ds hx
        rw [ih1.1 ds (hx v (by simp)), ih2.2 vs rfl ds (fun x hm => hx x (by simp [hm]))]
        simp only [List.length_cons]
        ring
      refine ⟨fun ds h => ?_, fun ws h => ?_⟩
      · cases h with
        | list hx => simpa using h2 _ hx
      · cases h
        exact h2
  exact (key n v h).1

end Awk
