import Verif.Spec.FromNumpy
import Verif.Lemmas.ToNumpy
/-
Lemmas about `from_numpy`.
-/

namespace Awk
open R

namespace Content

/-- The array shows the values `xs`. -/
structure Presents (c : Content) (xs : List Val) : Prop where
  good : c.Good
  len : c.len = xs.length
  vals : ∀ i (h : i < xs.length), c.valD i = xs[i]

theorem Presents.toList {c : Content} {xs : List Val} (h : Presents c xs) : c.toList = ok xs := by
  rw [h.good.toList]
  congr 1
  apply List.ext_getElem
  · simp [h.len]
  · intro i h1 h2
    simp [h.vals i h2]

theorem Presents.seg {c : Content} {xs : List Val} (h : Presents c xs) {k m : Nat} (hk : k + m ≤ xs.length) :
    c.seg k m = (xs.drop k).take m := by
  apply List.ext_getElem
  · simp; omega
  · intro i h1 h2
    rw [seg_length] at h1
    rw [seg_getElem, h.vals _ (by omega)]
    simp

theorem regular_presents {c : Content} {xs ys : List Val} {s n : Nat} (h : Presents c xs)
    (hl : xs.length = n * s) (hy : ys.length = n)
    (hv : ∀ i (h : i < ys.length), ys[i] = .list ((xs.drop (i * s)).take s)) :
    Presents (regular {} c s n) ys := by
  have hlen : (regular {} c s n).len = n := by
    simp only [Content.len]
    split
    · rw [h.len, hl, Nat.mul_div_cancel _ (by omega)]
    · rfl
  refine ⟨good_regular.mpr h.good, by rw [hlen, hy], fun i hi => ?_⟩
  rw [valD_regular h.good (by omega), hv i hi]
  have : (i + 1) * s ≤ n * s := Nat.mul_le_mul_right _ (by omega)
  rw [Nat.succ_mul] at this
  rw [h.seg (by omega)]
  rfl

theorem npRegular_presents {c : Content} {xs : List Val} {dims : List Nat} {n : Nat} (h : Presents c xs)
    (hl : xs.length = n * dims.prod) : Presents (npRegular n dims c) (NpArray.rows dims xs n) := by
  induction dims generalizing n with
  | nil => exact h
  | cons s dims ih =>
    have hl' : xs.length = n * s * dims.prod := by rw [hl, List.prod_cons, Nat.mul_assoc]
    have h1 := ih (n := n * s) hl'
    refine regular_presents h1 (NpArray.rows_length hl') (NpArray.rows_length hl) (fun i hi => ?_)
    rw [NpArray.rows_length hl] at hi
    have : (i + 1) * s ≤ n * s := Nat.mul_le_mul_right _ (by omega)
    rw [Nat.succ_mul] at this
    rw [← NpArray.rows_seg hl' (by omega)]
    simp [NpArray.rows, Nat.mul_assoc]

/-- With positive dimensions, the `zeros_length` of the nodes does not matter. -/
theorem fromNpLoop_presents {c : Content} {xs : List Val} {dims : List Nat} {n : Nat} (h : Presents c xs)
    (hl : xs.length = n * dims.prod) (hz : 0 ∉ dims.tail) :
    Presents (fromNpLoop n dims c) (NpArray.rows dims xs n) := by
  suffices hs : ∀ (dims : List Nat) (n m : Nat), xs.length = n * dims.prod → 0 ∉ dims →
      Presents (fromNpLoop m dims c) (NpArray.rows dims xs n) by
    cases dims with
    | nil => exact h
    | cons s dims =>
      have hl' : xs.length = n * s * dims.prod := by rw [hl, List.prod_cons, Nat.mul_assoc]
      have h1 := hs dims (n * s) s hl' hz
      refine regular_presents h1 (NpArray.rows_length hl') (NpArray.rows_length hl) (fun i hi => ?_)
      rw [NpArray.rows_length hl] at hi
      have : (i + 1) * s ≤ n * s := Nat.mul_le_mul_right _ (by omega)
      rw [Nat.succ_mul] at this
      rw [← NpArray.rows_seg hl' (by omega)]
      simp [NpArray.rows, Nat.mul_assoc]
  intro dims
  induction dims with
  | nil => intro n m _ _; exact h
  | cons s dims ih =>
    intro n m hl hz
    have hl' : xs.length = n * s * dims.prod := by rw [hl, List.prod_cons, Nat.mul_assoc]
    have h1 := ih (n * s) s hl' (fun h => hz (.tail _ h))
    have hs : s ≠ 0 := fun h => hz (by rw [h]; exact .head _)
    have h2 : Presents (regular {} (fromNpLoop s dims c) s n) (NpArray.rows (s :: dims) xs n) := by
      refine regular_presents h1 (NpArray.rows_length hl') (NpArray.rows_length hl) (fun i hi => ?_)
      rw [NpArray.rows_length hl] at hi
      have : (i + 1) * s ≤ n * s := Nat.mul_le_mul_right _ (by omega)
      rw [Nat.succ_mul] at this
      rw [← NpArray.rows_seg hl' (by omega)]
      simp [NpArray.rows, Nat.mul_assoc]
    have hlen : (regular {} (fromNpLoop s dims c) s m).len = (regular {} (fromNpLoop s dims c) s n).len := by
      simp [Content.len, hs]
    refine ⟨good_regular.mpr h1.good, by simp only [fromNpLoop]; rw [hlen]; exact h2.len, fun i hi => ?_⟩
    have h3 := h2.vals i hi
    have h4 := h2.len
    rw [valD_regular h1.good (by omega)] at h3
    simp only [fromNpLoop]
    rw [valD_regular h1.good (by omega)]
    exact h3

theorem npNumbers_ok (xs : List Atom) : npNumbers (xs.map Val.atom) = ok xs := by
  induction xs with
  | nil => rfl
  | cons x xs ih => simp [npNumbers, ih]

theorem numbers_of {dt : DType} {width : Nat} {items : List Val} (h : ∀ v ∈ items, (NpKind.number dt).Has width v) :
    ∃ xs : List Atom, items = xs.map Val.atom := by
  induction items with
  | nil => exact ⟨[], rfl⟩
  | cons v items ih =>
    obtain ⟨x, rfl⟩ := h v (.head _)
    obtain ⟨xs, rfl⟩ := ih (fun v hv => h v (.tail _ hv))
    exact ⟨x :: xs, rfl⟩

theorem numpy_presents (p : Params) (dt : DType) (xs : List Atom) :
    Presents (numpy p dt xs) (xs.map Val.atom) :=
  ⟨good_numpy _ _ _, by simp [Content.len], fun i h => by
    rw [valD_numpy (by simpa using h)]; simp⟩

theorem npBuffer_length {width : Nat} {items : List (List Atom)} (h : ∀ x ∈ items, x.length ≤ width) :
    (npBuffer width items).length = items.length * width := by
  induction items with
  | nil => simp [npBuffer]
  | cons x items ih =>
    have h1 := ih (fun x hx => h x (.tail _ hx))
    have h2 := h x (.head _)
    simp only [npBuffer, List.map_cons, List.flatten_cons, List.length_append, List.length_replicate,
      List.length_cons] at h1 ⊢
    rw [h1, Nat.succ_mul]
    omega

theorem npBuffer_at {width : Nat} {items : List (List Atom)} (h : ∀ x ∈ items, x.length ≤ width) {i : Nat}
    (hi : i < items.length) :
    ((npBuffer width items).drop (i * width)).take items[i].length = items[i] := by
  induction items generalizing i with
  | nil => simp at hi
  | cons x items ih =>
    have h2 := h x (.head _)
    have hx : (x ++ List.replicate (width - x.length) (Atom.int 0)).length = width := by simp; omega
    simp only [npBuffer, List.map_cons, List.flatten_cons] at ih ⊢
    cases i with
    | zero => simp
    | succ i =>
      have h3 := ih (fun x hx => h x (.tail _ hx)) (i := i) (by simpa using hi)
      rw [show (i + 1) * width = (x ++ List.replicate (width - x.length) (Atom.int 0)).length + i * width by
        rw [hx, Nat.succ_mul]; omega, ← List.drop_drop, List.drop_left]
      simpa using h3

/-- The item with the given bytes. -/
def npItem (kind : NpKind) (x : List Atom) : Val :=
  match kind with
  | .text => Val.str (x.map Val.atom)
  | _ => Val.bytes (x.map Val.atom)

/-- The items of an array of strings. -/
theorem codes_of {kind : NpKind} {width : Nat} {items : List Val} (hk : ∀ dt, kind ≠ .number dt)
    (h : ∀ v ∈ items, kind.Has width v) :
    ∃ codes : List (List Atom), mapR npCodes items = ok codes ∧ (∀ x ∈ codes, x.length ≤ width) ∧
      items = codes.map (npItem kind) := by
  induction items with
  | nil => exact ⟨[], rfl, by simp, rfl⟩
  | cons v items ih =>
    obtain ⟨codes, h1, h2, h3⟩ := ih (fun v hv => h v (.tail _ hv))
    have h4 := h v (.head _)
    have key : ∃ x : List Atom, npCodes v = ok x ∧ x.length ≤ width ∧ v = npItem kind x := by
      cases kind with
      | number dt => exact absurd rfl (hk dt)
      | bytes =>
        obtain ⟨xs, rfl, hw⟩ := h4
        exact ⟨xs, npNumbers_ok xs, hw, rfl⟩
      | text =>
        obtain ⟨xs, rfl, hw⟩ := h4
        exact ⟨xs, npNumbers_ok xs, hw, rfl⟩
    obtain ⟨x, h5, h6, h7⟩ := key
    refine ⟨x :: codes, by simp [mapR, h5, h1], ?_, by rw [h7, h3]; rfl⟩
    intro y hy
    rcases List.mem_cons.mp hy with rfl | hy
    · exact h6
    · exact h2 y hy

theorem fromNpText_presents {arr item : ArrKind} {width : Nat} {items : List Val} {codes : List (List Atom)}
    (hc : mapR npCodes items = ok codes) (hw : ∀ x ∈ codes, x.length ≤ width) :
    ∃ c, fromNpText arr item width items = ok c ∧
      Presents c (codes.map (fun x => wrapList { arr := arr } (x.map Val.atom))) := by
  refine ⟨_, by rw [fromNpText, hc, bind_ok], ?_⟩
  have hb := npBuffer_length hw
  have hin : ∀ i (hi : i < codes.length), i * width + codes[i].length ≤ codes.length * width := by
    intro i hi
    have := hw codes[i] (List.getElem_mem _)
    have h2 : (i + 1) * width ≤ codes.length * width := Nat.mul_le_mul_right _ (by omega)
    rw [Nat.succ_mul] at h2
    omega
  have hg : (listArray { arr := arr } ((List.range codes.length).map (fun (i : Nat) => ((i : Int) * (width : Int))))
      (List.zipWith (fun s (x : List Atom) => s + (x.length : Int))
        ((List.range codes.length).map (fun (i : Nat) => ((i : Int) * (width : Int)))) codes)
      (numpy { arr := item } .uint8 (npBuffer width codes))).Good := by
    refine good_listArray.mpr ⟨by simp, good_numpy _ _ _, fun i hi => ?_⟩
    have hi' : i < codes.length := by simpa using hi
    have h3 := hin i hi'
    simp only [List.getElem_map, List.getElem_range, List.getElem_zipWith, GoodPair, Content.len, hb]
    rw [show ((i : Int) * (width : Int)) = ((i * width : Nat) : Int) by simp]
    omega
  refine ⟨hg, by simp [Content.len], fun i hi => ?_⟩
  have hi' : i < codes.length := by simpa using hi
  have h3 := hin i hi'
  rw [valD_listArray hg (by simpa using hi') (by simpa using hi')]
  simp only [List.getElem_map, List.getElem_range, List.getElem_zipWith]
  rw [show ((i : Int) * (width : Int)) = ((i * width : Nat) : Int) by simp]
  rw [show (((i * width : Nat) : Int) + (codes[i].length : Int) - ((i * width : Nat) : Int)).toNat
    = codes[i].length by omega, Int.toNat_natCast,
    (numpy_presents _ _ _).seg (by simp [hb]; omega), ← List.map_drop, ← List.map_take, npBuffer_at hw hi']

/-- The one-dimensional array shows the items. -/
theorem fromNpFlat_presents {kind : NpKind} {width : Nat} {items : List Val}
    (h : ∀ v ∈ items, kind.Has width v) :
    ∃ c, fromNpFlat kind width items = ok c ∧ Presents c items := by
  cases kind with
  | number dt =>
    obtain ⟨xs, rfl⟩ := numbers_of h
    exact ⟨numpy {} dt xs, by simp [fromNpFlat, npNumbers_ok], numpy_presents _ _ _⟩
  | bytes =>
    obtain ⟨codes, h1, h2, h3⟩ := codes_of (by simp) h
    obtain ⟨c, h4, h5⟩ := fromNpText_presents (arr := .bytestring) (item := .byte) h1 h2
    exact ⟨c, h4, by rw [h3]; exact h5⟩
  | text =>
    obtain ⟨codes, h1, h2, h3⟩ := codes_of (by simp) h
    obtain ⟨c, h4, h5⟩ := fromNpText_presents (arr := .string) (item := .char) h1 h2
    exact ⟨c, h4, by rw [h3]; exact h5⟩

/-- The items with the mask. -/
def npShown (mask : NpMask) (items : List Val) : List Val :=
  match mask with
  | .array m => List.zipWith (fun b v => if b then Val.null else v) m items
  | _ => items

theorem byteMasked_presents {c : Content} {xs : List Val} {m : List Bool} (h : Presents c xs)
    (hm : m.length = xs.length) :
    Presents (byteMasked {} (m.map (fun b => if b then 1 else 0)) false c) (npShown (.array m) xs) := by
  have hg : (byteMasked {} (m.map (fun b => if b then 1 else 0)) false c).Good :=
    good_byteMasked.mpr ⟨by simp [h.len, hm], h.good⟩
  refine ⟨hg, by simp [Content.len, npShown, hm], fun i hi => ?_⟩
  simp only [npShown, List.length_zipWith] at hi
  rw [valD_byteMasked hg (by simp; omega)]
  simp only [npShown, List.getElem_zipWith]
  rw [h.vals i (by omega)]
  have him : i < m.length := by omega
  cases hb : m[i] <;> simp [maskOk, him, hb]

theorem npAttach_regular {c c' : Content} {xs : List Val} {dims : List Nat} {n : Nat} (h : Presents c xs)
    (hl : xs.length = n * dims.prod) (hc : npAttach c = ok c') :
    npAttach (npRegular n dims c) = ok (npRegular n dims c') := by
  induction dims generalizing n with
  | nil => exact hc
  | cons s dims ih =>
    have hl' : xs.length = n * s * dims.prod := by rw [hl, List.prod_cons, Nat.mul_assoc]
    have h1 := (npRegular_presents h hl).len
    rw [NpArray.rows_length hl] at h1
    simp only [npRegular] at h1
    simp only [npRegular, npAttach, ih hl', bind_ok, h1]

theorem prod_ne_zero {dims : List Nat} (h : 0 ∉ dims) : dims.prod ≠ 0 := by
  induction dims with
  | nil => simp
  | cons s dims ih =>
    rw [List.prod_cons]
    exact Nat.mul_ne_zero (fun hs => h (by rw [hs]; exact .head _)) (ih (fun hd => h (.tail _ hd)))

theorem shown_length {mask : NpMask} {xs : List Val} (hm : mask.Covers xs.length) :
    (npShown mask xs).length = xs.length := by
  cases mask <;> simp_all [npShown, NpMask.Covers]

theorem attach_text {data : Content} {n : Nat} {dims : List Nat} (hd : ∀ c', npAttach data ≠ ok c') (c : Content) :
    npAttach (fromNpLoop n dims data) ≠ ok c := by
  induction dims generalizing n c with
  | nil => exact hd c
  | cons s dims ih =>
    intro h
    simp only [fromNpLoop, npAttach] at h
    obtain ⟨c', h1, _⟩ := bind_eq_ok.mp h
    exact ih _ h1

theorem flat_attach {kind : NpKind} {width : Nat} {items : List Val} {data : Content}
    (hk : ∀ dt, kind ≠ .number dt) (h : fromNpFlat kind width items = ok data) (c : Content) :
    npAttach data ≠ ok c := by
  cases kind with
  | number dt => exact absurd rfl (hk dt)
  | bytes =>
    obtain ⟨codes, _, h2⟩ := bind_eq_ok.mp h
    cases h2
    intro h3
    exact nomatch (show R.err _ = R.ok _ from h3)
  | text =>
    obtain ⟨codes, _, h2⟩ := bind_eq_ok.mp h
    cases h2
    intro h3
    exact nomatch (show R.err _ = R.ok _ from h3)

theorem fromNpMask_presents {kind : NpKind} {width : Nat} {items : List Val} {data c : Content} {n : Nat}
    {dims : List Nat} {mask : NpMask} (hf : fromNpFlat kind width items = ok data) (hd : Presents data items)
    (hl : items.length = n * dims.prod) (hm : mask.Covers items.length)
    (hz : (∀ dt, kind ≠ .number dt) → 0 ∉ dims.tail)
    (ha : ∀ m, mask = .array m → dims = [])
    (h : fromNpMask kind n dims mask data = ok c) :
    Presents c (NpArray.rows dims (npShown mask items) n) := by
  cases mask with
  | absent =>
    cases kind with
    | number dt =>
      cases dims with
      | nil => cases h; exact hd
      | cons s dims => exact nomatch (show R.err _ = R.ok _ from h)
    | bytes => cases h; exact fromNpLoop_presents hd hl (hz (by simp))
    | text => cases h; exact fromNpLoop_presents hd hl (hz (by simp))
  | nomask =>
    simp only [fromNpMask] at h
    split at h
    · next he =>
      cases h
      subst he
      exact ⟨good_unmasked.mpr hd.good, hd.len, hd.vals⟩
    · cases kind with
      | number dt =>
        obtain ⟨xs, h1, h2⟩ := bind_eq_ok.mp hf
        cases h2
        have h3 := npAttach_regular hd hl (c' := unmasked {} (numpy {} dt xs)) rfl
        rw [show npAttach (npRegular n dims (numpy {} dt xs)) = ok c from h] at h3
        cases h3
        exact npRegular_presents ⟨good_unmasked.mpr hd.good, hd.len, hd.vals⟩ hl
      | bytes => exact absurd h (attach_text (flat_attach (by simp) hf) c)
      | text => exact absurd h (attach_text (flat_attach (by simp) hf) c)
  | array m =>
    have := ha m rfl
    subst this
    cases h
    exact byteMasked_presents hd hm

theorem fromNpRecurse_presents {reg : Bool} {kind : NpKind} {width : Nat} {items : List Val} {data c : Content}
    {n : Nat} {dims : List Nat} {mask : NpMask} (hf : fromNpFlat kind width items = ok data)
    (hd : Presents data items) (hl : items.length = n * dims.prod) (hm : mask.Covers items.length)
    (hz : (∀ dt, kind ≠ .number dt) → reg = false → 0 ∉ dims.tail)
    (ha : ∀ m, mask = .array m → dims = [] ∨ reg = true)
    (h : fromNpRecurse reg kind mask data n dims = ok c) :
    Presents c (NpArray.rows dims (npShown mask items) n) := by
  cases reg with
  | false =>
    have h' : fromNpMask kind n dims mask data = ok c := by
      cases dims with
      | nil => exact h
      | cons s dims => simpa [fromNpRecurse] using h
    exact fromNpMask_presents hf hd hl hm (fun hk => hz hk rfl) (fun m hm => by simpa using ha m hm) h'
  | true =>
    have key : ∃ leaf, Presents leaf (npShown mask items) ∧ c = npRegular n dims leaf := by
      clear ha hz
      induction dims generalizing n c with
      | nil =>
        exact ⟨c, fromNpMask_presents (n := n) (dims := []) hf hd hl hm (by simp) (by simp) h, rfl⟩
      | cons s dims ih =>
        simp only [fromNpRecurse, if_true] at h
        split at h
        · exact nomatch (show R.err _ = R.ok _ from h)
        · obtain ⟨c', h1, h2⟩ := bind_eq_ok.mp h
          cases h2
          obtain ⟨leaf, h3, rfl⟩ := ih (by rw [hl, List.prod_cons, Nat.mul_assoc]) h1
          exact ⟨leaf, h3, rfl⟩
    obtain ⟨leaf, h1, rfl⟩ := key
    exact npRegular_presents h1 (by rw [shown_length hm]; exact hl)

theorem fromNpRecurse_ok {kind : NpKind} {mask : NpMask} {data : Content} {n : Nat} {dims : List Nat}
    (hz : 0 ∉ dims.tail) : IsOk (fromNpRecurse true kind mask data n dims) := by
  suffices hs : ∀ (dims : List Nat) (n : Nat), 0 ∉ dims → IsOk (fromNpRecurse true kind mask data n dims) by
    cases dims with
    | nil => exact hs [] n (by simp)
    | cons s dims =>
      have h0 : dims.prod ≠ 0 := prod_ne_zero hz
      obtain ⟨c, hc⟩ := hs dims (n * s) hz
      exact ⟨_, by simp only [fromNpRecurse, if_true]; rw [if_neg h0, hc]; rfl⟩
  intro dims
  induction dims with
  | nil =>
    intro n _
    cases mask <;> cases kind <;> exact ⟨_, rfl⟩
  | cons s dims ih =>
    intro n hz
    have h1 : 0 ∉ dims := fun h => hz (.tail _ h)
    have h0 : dims.prod ≠ 0 := prod_ne_zero h1
    obtain ⟨c, hc⟩ := ih (n * s) h1
    exact ⟨_, by simp only [fromNpRecurse, if_true]; rw [if_neg h0, hc]; rfl⟩

/-- `tolist()` of the array. -/
theorem mapR_shown {mask : NpMask} {items : List Val} (hm : mask.Covers items.length) :
    mapR NpArray.cell ((items.map some).zip
      ((mask.flags items.length).getD (List.replicate items.length false))) = ok (npShown mask items) := by
  have key : ∀ (items : List Val) (m : List Bool), m.length = items.length →
      mapR NpArray.cell ((items.map some).zip m) = ok (List.zipWith (fun b v => if b then Val.null else v) m items) := by
    intro items
    induction items with
    | nil => intro m hm; simp at hm; subst hm; rfl
    | cons v items ih =>
      intro m hm
      cases m with
      | nil => simp at hm
      | cons b m =>
        have := ih m (by simpa using hm)
        cases b <;> simp [mapR, NpArray.cell, this]
  have hrep : ∀ items : List Val, List.zipWith (fun b v => if b then Val.null else v)
      (List.replicate items.length false) items = items := by
    intro items
    induction items with
    | nil => rfl
    | cons v items ih => simp [List.replicate_succ, ih]
  cases mask with
  | absent => simp only [NpMask.flags, Option.getD_none, npShown]; rw [key _ _ (by simp), hrep]
  | nomask => simp only [NpMask.flags, Option.getD_some, npShown]; rw [key _ _ (by simp), hrep]
  | array m => simp only [NpMask.flags, Option.getD_some, npShown]; exact key _ _ hm

end Content
end Awk
