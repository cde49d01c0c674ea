import Verif.Lemmas.Maps
/-
`local_index`, `num` and `flatten`.
-/

namespace Awk
open R

namespace Content

theorem hasAxis_child {u e : Bool} {a : Nat} {c : Content} (h : HasAxis u e a c)
    (hl : c.isThru u = true) : ∀ d ∈ c.children, HasAxis u e a d := by
  cases h with
  | here h => cases c <;> simp [isListNode, isThru] at h hl
  | inside h => cases c <;> simp [isListNode, isThru] at h hl
  | thru _ h => exact h
  | empty => simp [isThru] at hl

theorem hasAxis_below {u e : Bool} {a : Nat} {c : Content} (h : HasAxis u e (a + 1) c)
    (ha : 1 ≤ a) (hl : c.isListNode = true) : ∀ d ∈ c.children, HasAxis u e a d := by
  cases h with
  | here h => omega
  | inside _ _ h => exact h
  | thru h => cases c <;> simp [isListNode, isThru] at h hl
  | empty => simp [isListNode] at hl

theorem not_hasAxis_numpy {u e : Bool} {a : Nat} {p : Params} {dt : DType} {data : List Atom} :
    ¬ HasAxis u e a (numpy p dt data) := by
  intro h
  cases h with
  | here h => simp [isListNode] at h
  | inside h => simp [isListNode] at h
  | thru h => simp [isThru] at h

theorem not_hasAxis_union {e : Bool} {a : Nat} {p : Params} {t i : List Int} {cs : List Content} :
    ¬ HasAxis false e a (union p t i cs) := by
  intro h
  cases h with
  | here h => simp [isListNode] at h
  | inside h => simp [isListNode] at h
  | thru h => simp [isThru] at h

/-- The list of the first `n` integers, as `local_index` shows it. -/
theorem positions_wrapList (p : Params) (vs : List Val) :
    Val.positions (wrapList p vs)
      = .list (((List.range vs.length).map (fun (k : Nat) => (k : Int))).map
          (fun x => .atom (.int x))) := by
  simp [Val.positions]

theorem listLocalindex_ok {f : Nat → Nat} {n : Nat} :
    listLocalindex (offsTo f n) = ok (listOffset {} (offsTo f n) (intArray
      (((List.range n).map (fun i => (List.range (f i)).map (fun (k : Nat) => (k : Int)))).flatten))) := by
  unfold listLocalindex
  rw [rd_offsTo_last, bind_ok, show (offsTo f n).length - 1 = n by simp]
  unfold ListArray_localindex
  rw [forN_segments (fun i => (List.range (f i)).map (fun (k : Nat) => (k : Int))) ?_ ?_, bind_ok]
  · intro i hi done rest hd hr
    simp only [List.length_map, List.length_range] at hd hr ⊢
    rw [rd_offsTo (by omega), bind_ok, rd_offsTo (by omega), bind_ok]
    have := forFrom_segment (a := (sumTo f i : Int)) (b := (sumTo f (i + 1) : Int)) (o := 0)
      (body := fun j out => wr out j (j - (sumTo f i : Int))) (fun j => j - (sumTo f i : Int))
      (fun j out => by simp) (done := done) (rest := rest) (by rw [hd]; simp)
      (by rw [sumTo_diff]; omega)
    rw [this, sumTo_diff]
    simp
  · rw [alloc_length, flatten_map_length]
    exact sumTo_congr (fun i _ => by simp)

theorem listLocalindex_maps {c : Content} {n : Nat} {p : Params} {vs : Nat → List Val}
    (hn : c.len = n) (hv : ∀ i, i < n → c.valD i = wrapList p (vs i))
    {f : Nat → Nat} (hf : ∀ i, i < n → f i = (vs i).length) :
    MapsG True c (listOffset {} (offsTo f n) (intArray
      (((List.range n).map (fun i => (List.range (f i)).map (fun (k : Nat) => (k : Int)))).flatten)))
      (Val.mapAxis false Val.positions 1) := by
  have hs : ∀ i, sumTo (fun i => ((List.range (f i)).map (fun (k : Nat) => (k : Int))).length) i
      = sumTo f i := fun i => sumTo_congr (fun j _ => by simp)
  have hb : sumTo f n ≤ (intArray (((List.range n).map
      (fun i => (List.range (f i)).map (fun (k : Nat) => (k : Int)))).flatten)).len := by
    rw [len_intArray, flatten_map_length, hs]
  refine ⟨⟨good_offsTo (good_intArray _) hb, by simp [len, hn], ?_⟩, fun _ => by simp [len, hn]⟩
  intro i hi
  rw [hn] at hi
  rw [valD_offsTo (good_intArray _) hb hi, hv i hi, Val.mapAxis_one, positions_wrapList, ← hf i hi]
  have := intArray_seg (S := fun i => (List.range (f i)).map (fun (k : Nat) => (k : Int))) hi
  rw [hs] at this
  simp only [List.length_map, List.length_range] at this
  rw [this, wrapList_default]

theorem RegularArray_localindex_ok (size n : Nat) :
    RegularArray_localindex (alloc ((n : Int) * size)) size n
      = ok (((List.range n).map
          (fun _ => (List.range size).map (fun (k : Nat) => (k : Int)))).flatten) := by
  unfold RegularArray_localindex
  refine forN_segments (fun _ => (List.range size).map (fun (k : Nat) => (k : Int))) ?_ ?_
  · intro i hi done rest hd hr
    simp only [List.length_map, List.length_range] at hd hr ⊢
    rw [sumTo_const] at hd
    have := forFrom_segment (a := 0) (b := (size : Int)) (o := ((i * size : Nat) : Int))
      (body := fun j out => wr out (((i * size : Nat) : Int) + j) j) (fun j => j)
      (fun j out => rfl) (done := done) (rest := rest) (by omega) (by omega)
    unfold forFrom at this
    simp only [Int.sub_zero, Int.toNat_natCast, Int.zero_add] at this
    simp only [bind_ok]
    push_cast at this ⊢
    exact this
  · rw [show ((n : Int) * size) = ((n * size : Nat) : Int) by push_cast; rfl, alloc_length,
      flatten_map_length]
    simp only [List.length_map, List.length_range, sumTo_const]

theorem localindexF_ok {f a : Nat} {c : Content} (h : c.Good) (hr : c.rank ≤ f) (ha : 1 ≤ a) :
    (localindexF f a c).Tot (HasAxis true true a c)
      (fun c' => MapsG True c c' (Val.mapAxis false Val.positions a)) := by
  induction f generalizing a c with
  | zero => exfalso; cases c <;> simp [rank] at hr
  | succ f ih =>
    have hnull := Val.mapAxis_null false Val.positions a
    obtain ⟨b, rfl⟩ : ∃ b, a = b + 1 := ⟨a - 1, by omega⟩
    cases c <;> simp only [localindexF, rank] at hr ⊢
    case empty p =>
      exact .ok (intArray_maps (by simp [len]) (fun i hi => by simp at hi))
    case numpy p dt data => exact .err not_hasAxis_numpy
    case regular p c size zeros =>
      have hc := good_regular.mp h
      by_cases hb : b = 0
      · subst hb
        rw [if_pos rfl, RegularArray_localindex_ok, bind_ok]
        refine .ok ?_
        set n := (regular p c size zeros).len with hn
        have hs : ∀ i, sumTo (fun _ => ((List.range size).map (fun (k : Nat) => (k : Int))).length) i
            = i * size := fun i => by simp only [List.length_map, List.length_range, sumTo_const]
        have hlen : (intArray (((List.range n).map
            (fun _ => (List.range size).map (fun (k : Nat) => (k : Int)))).flatten)).len
              = n * size := by
          rw [len_intArray, flatten_map_length, hs]
        have hll : (regular {} (intArray (((List.range n).map
            (fun _ => (List.range size).map (fun (k : Nat) => (k : Int)))).flatten)) size n).len = n := by
          rw [len, hlen]
          split
          · rw [Nat.mul_div_cancel _ (by omega)]
          · rfl
        refine ⟨⟨good_regular.mpr (good_intArray _), by rw [hll], ?_⟩, fun _ => by rw [hll]⟩
        intro i hi
        rw [valD_regular (good_intArray _) (by rw [hll]; omega), valD_regular hc hi,
          Val.mapAxis_one, positions_wrapList, seg_length]
        have := intArray_seg (S := fun _ => (List.range size).map (fun (k : Nat) => (k : Int)))
          (show i < n from hi)
        rw [hs] at this
        simp only [List.length_map, List.length_range] at this
        rw [this, wrapList_default]
      · rw [if_neg (by omega)]
        refine ((ih hc (a := b) (by omega) (by omega)).mono (fun hh => hasAxis_below hh (by omega)
          rfl c (by simp [children])) (fun _ h => h)).bind (fun next hm => .ok ?_)
        exact MapsG.regular hc (by omega) hm
    case listArray p starts stops c =>
      obtain ⟨hl, hc, hp⟩ := good_listArray.mp h
      by_cases hb : b = 0
      · subst hb
        rw [if_pos rfl, listArrayCompact_ok h, bind_ok, listLocalindex_ok]
        refine .ok (listLocalindex_maps (p := p)
          (vs := fun i => c.seg (starts[i]?.getD 0).toNat
            ((stops[i]?.getD 0) - (starts[i]?.getD 0)).toNat) rfl ?_ ?_)
        · intro i hi
          simp only [len] at hi
          rw [valD_listArray h hi (by omega)]
          simp [hi, show i < stops.length by omega]
        · intro i hi
          rw [lens_listArray h hi]; simp [pairLen]
      · rw [if_neg (by omega)]
        refine ((ih hc (a := b) (by omega) (by omega)).mono (fun hh => hasAxis_below hh (by omega)
          rfl c (by simp [children])) (fun _ h => h)).bind (fun next hm => .ok ?_)
        exact MapsG.listArray h (by omega) hm
    case listOffset p offsets c =>
      obtain ⟨hl, hc, hp⟩ := good_listOffset.mp h
      by_cases hb : b = 0
      · subst hb
        obtain ⟨n, hn⟩ : ∃ n, offsets.length = n + 1 := ⟨offsets.length - 1, by omega⟩
        rw [if_pos rfl, listOffsetCompact_ok hn (fun i hi => (hp i hi).le), bind_ok,
          listLocalindex_ok]
        refine .ok (listLocalindex_maps (p := p)
          (vs := fun i => c.seg (offsets[i]?.getD 0).toNat
            ((offsets[i + 1]?.getD 0) - (offsets[i]?.getD 0)).toNat) (by simp [len, hn]) ?_ ?_)
        · intro i hi
          rw [valD_listOffset h (by omega)]
          simp [show i < offsets.length by omega, show i + 1 < offsets.length by omega]
        · intro i hi
          simp [pairLen, List.getElem?_drop, Nat.add_comm 1 i]
      · rw [if_neg (by omega)]
        refine ((ih hc (a := b) (by omega) (by omega)).mono (fun hh => hasAxis_below hh (by omega)
          rfl c (by simp [children])) (fun _ h => h)).bind (fun next hm => .ok ?_)
        exact MapsG.listOffset h (by omega) hm
    case indexed p index c =>
      obtain ⟨c', h1, h2, h3, h4, h5, h6⟩ := project_indexed h
      rw [h1, bind_ok]
      refine (ih h2 (a := b + 1) (by omega) (by omega)).mono (fun hh => ?_)
        (fun _ hm => hm.of_eq h4 h5)
      exact h6.closed (HasAxis.closed true true) (good_indexed.mp h).1 _
        (hasAxis_child hh rfl c (by simp [children]))
    case indexedOption p index c =>
      refine (throughOption_tot (c := indexedOption p index c) h (.inl ⟨_, _, _, rfl⟩) hnull
        (fun next g1 g2 g3 g4 => ?_)).mono (fun h => h) (fun _ hm => ⟨hm.2, fun _ => hm.1⟩)
      simp only [inner] at g2
      refine (ih g1 (a := b + 1) (by omega) (by omega)).mono (fun hh => ?_) (fun _ hm => hm.toMaps)
      exact g4.closed (HasAxis.closed true true) (good_indexedOption.mp h).1 _
        (hasAxis_child hh rfl c (by simp [children]))
    case byteMasked p mask vw c =>
      refine (throughOption_tot (c := byteMasked p mask vw c) h (.inr ⟨_, _, _, _, rfl⟩) hnull
        (fun next g1 g2 g3 g4 => ?_)).mono (fun h => h) (fun _ hm => ⟨hm.2, fun _ => hm.1⟩)
      simp only [inner] at g2
      refine (ih g1 (a := b + 1) (by omega) (by omega)).mono (fun hh => ?_) (fun _ hm => hm.toMaps)
      exact g4.closed (HasAxis.closed true true) (good_byteMasked.mp h).2 _
        (hasAxis_child hh rfl c (by simp [children]))
    case bitMasked p mask vw length lsb c =>
      obtain ⟨bm, h1, h2, h3, h4⟩ := toByteMasked_bit h
      rw [h1, bind_ok]
      refine (ih h3 (a := b + 1) (by simp only [rank]; omega) (by omega)).mono (fun hh => ?_)
        (fun _ hm => hm.of_eq h2 h4)
      exact .thru rfl (fun d hd => hasAxis_child hh rfl d (by simpa [children] using hd))
    case unmasked p c =>
      refine ((ih (good_unmasked.mp h) (a := b + 1) (by omega) (by omega)).mono
        (fun hh => hasAxis_child hh rfl c (by simp [children])) (fun _ h => h)).bind
        (fun next hm => .ok ?_)
      exact MapsG.unmasked hm
    case record p keys cs length =>
      obtain ⟨hlen, hcs⟩ := good_record.mp h
      refine (mapR_tot (P := fun c c' => MapsG True c c' (Val.mapAxis false Val.positions (b + 1)))
        (fun c hc => (ih (hcs c hc) (a := b + 1) (by have := rank_le_rankAll hc; omega)
          (by omega)).mono (fun hh => hasAxis_child hh rfl c (by simpa [children] using hc)) (fun _ h => h))).bind
        (fun cs' hm => .ok ?_)
      refine MapsG.record h (hm.imp (fun _ _ h => h.toMaps)) (Nat.le_refl _) ?_ (fun _ => rfl)
      intro d hd
      obtain ⟨e, he, hr⟩ := forall₂_mem hm hd
      rw [hr.exact trivial]; exact hlen e he
    case union p tags index cs =>
      obtain ⟨hl, hcs, _⟩ := good_union.mp h
      refine (mapR_tot (P := fun c c' => MapsG True c c' (Val.mapAxis false Val.positions (b + 1)))
        (fun c hc => (ih (hcs c hc) (a := b + 1) (by have := rank_le_rankAll hc; omega)
          (by omega)).mono (fun hh => hasAxis_child hh rfl c (by simpa [children] using hc)) (fun _ h => h))).bind
        (fun cs' hm => .ok ?_)
      exact MapsG.union h (hm.imp (fun _ _ h => h.toMaps))

end Content
end Awk
