import Verif.Lemmas.ListOps
/-
`num`.
-/

namespace Awk
open R

namespace Content

theorem count_wrapList (p : Params) (vs : List Val) :
    Val.count (wrapList p vs) = .atom (.int vs.length) := by simp [Val.count]

theorem listOffsetCompact_offsTo {f : Nat → Nat} {n : Nat} :
    listOffsetCompact (offsTo f n) = ok (offsTo f n) := by
  unfold listOffsetCompact
  rw [rd_offsTo_zero, bind_ok, if_pos rfl]

theorem ListArray_num_ok {starts stops : List Int} {n : Nat} (hs : n ≤ starts.length)
    (hl : n ≤ stops.length) :
    ListArray_num (alloc n) starts stops n
      = ok ((List.range n).map (fun i => (stops[i]?.getD 0) - (starts[i]?.getD 0))) := by
  unfold ListArray_num
  refine forN_fill_eq _ (alloc_length _) (fun i hi => ?_)
  rw [rd_nat_ok (by omega), bind_ok, rd_nat_ok (by omega), bind_ok]
  simp [show i < starts.length by omega, show i < stops.length by omega]

theorem allNodes_child {φ : Content → Prop} {c d : Content} (h : AllNodes φ c)
    (hd : d ∈ c.children) : AllNodes φ d := by
  cases h with
  | mk _ h => exact h d hd

theorem allNodes_self {φ : Content → Prop} {c : Content} (h : AllNodes φ c) : φ c := by
  cases h with
  | mk h _ => exact h

theorem numF_ok {f a : Nat} {c : Content} (h : c.Good) (hr : c.rank ≤ f) (ha : 1 ≤ a)
    (hz : a = 1 ∨ AllNodes ZeroBasedNode c) :
    (numF f a c).Tot (HasAxis false true a c)
      (fun c' => MapsG True c c' (Val.mapAxis false Val.count a)) := by
  induction f generalizing a c with
  | zero => exfalso; cases c <;> simp [rank] at hr
  | succ f ih =>
    have hnull := Val.mapAxis_null false Val.count a
    obtain ⟨b, rfl⟩ : ∃ b, a = b + 1 := ⟨a - 1, by omega⟩
    cases c <;> simp only [numF, rank] at hr ⊢
    case empty p =>
      exact .ok (intArray_maps (by simp [len]) (fun i hi => by simp at hi))
    case numpy p dt data => exact .err not_hasAxis_numpy
    case regular p c size zeros =>
      have hc := good_regular.mp h
      by_cases hb : b = 0
      · subst hb
        rw [if_pos rfl]
        unfold RegularArray_num
        rw [forN_fill_eq (fun _ => (size : Int)) (alloc_length _) (fun i hi => rfl), bind_ok]
        refine .ok (intArray_maps (by simp) ?_)
        intro i hi
        rw [valD_regular hc (by simpa using hi), Val.mapAxis_one, count_wrapList]; simp
      · rw [if_neg (by omega)]
        refine ((ih hc (a := b) (by omega) (by omega)
          (.inr (allNodes_child (hz.resolve_left (by omega)) (by simp [children])))).mono
          (fun hh => hasAxis_below hh (by omega)
          rfl c (by simp [children])) (fun _ h => h)).bind (fun next hm => .ok ?_)
        exact MapsG.regular hc (by omega) hm
    case listArray p starts stops c =>
      obtain ⟨hl, hc, hp⟩ := good_listArray.mp h
      by_cases hb : b = 0
      · subst hb
        rw [if_pos rfl, ListArray_num_ok (Nat.le_refl _) hl, bind_ok]
        refine .ok (intArray_maps (by simp [len]) ?_)
        intro i hi
        have hi' : i < starts.length := by simpa using hi
        rw [valD_listArray h hi' (by omega), Val.mapAxis_one, count_wrapList]
        have := (hp i hi').le
        simp [hi', show i < stops.length by omega]
        omega
      · rw [if_neg (by omega)]
        obtain ⟨offs, c', h1, h2, h3⟩ := listParts_ok h rfl
        obtain ⟨d, hd, hga⟩ := h2.src
        have hdc : d = c := by simpa [children] using hd
        subst hdc
        simp only [rank] at h3
        rw [h1, bind_ok]
        refine ((ih h2.good (a := b) (by omega) (by omega)
          (.inr (hga.closed ZeroBased.closed hc 0
            (allNodes_child (hz.resolve_left (by omega)) (by simp [children]))))).mono
          (fun hh => hga.closed (HasAxis.closed false true) hc _
            (hasAxis_below hh (by omega) rfl d (by simp [children]))) (fun _ h => h)).bind
          (fun next hm => ?_)
        simp only
        rw [h2.offs_eq, listOffsetCompact_offsTo, bind_ok, ← h2.offs_eq]
        exact .ok (MapsG.parts (keep := false) h2 (by omega) hm)
    case listOffset p offsets c =>
      obtain ⟨hl, hc, hp⟩ := good_listOffset.mp h
      by_cases hb : b = 0
      · subst hb
        obtain ⟨m1, m2, m3⟩ := make_pairs hp
        rw [if_pos rfl, ListArray_num_ok (by simp only [len]; omega) (by simp only [len]; omega),
          bind_ok]
        refine .ok (intArray_maps (by simp [len]) ?_)
        intro i hi
        have hi' : i + 1 < offsets.length := by
          simp only [len, List.length_map, List.length_range] at hi; omega
        rw [valD_listOffset h hi', Val.mapAxis_one, count_wrapList]
        have := (hp i hi').le
        simp only [List.getElem_map, List.getElem_range, makeStarts_getElem? hi']
        simp only [makeStops, List.getElem?_drop, Nat.add_comm 1 i, hi',
          show i < offsets.length by omega, getElem?_pos, Option.getD_some, seg_length]
        congr 2
        omega
      · rw [if_neg (by omega)]
        have hz' := hz.resolve_left (by omega)
        refine ((ih hc (a := b) (by omega) (by omega)
          (.inr (allNodes_child hz' (by simp [children])))).mono
          (fun hh => hasAxis_below hh (by omega)
          rfl c (by simp [children])) (fun _ h => h)).bind (fun next hm => ?_)
        have h0 : offsets[0]? = some 0 := allNodes_self hz'
        have : listOffsetCompact offsets = ok offsets := by
          unfold listOffsetCompact
          rw [rd_ok (by omega) (by omega), bind_ok]
          rw [List.getElem?_eq_getElem (by omega)] at h0
          simp only [Option.some.injEq] at h0
          rw [if_pos (by simpa using h0)]
        rw [this, bind_ok]
        exact .ok (MapsG.listOffset (keep := false) h (by omega) hm)
    case indexed p index c =>
      obtain ⟨c', h1, h2, h3, h4, h5, h6⟩ := project_indexed h
      rw [h1, bind_ok]
      refine (ih h2 (a := b + 1) (by omega) (by omega) (hz.imp_right (fun hz =>
          h6.closed ZeroBased.closed (good_indexed.mp h).1 0
            (allNodes_child hz (by simp [children]))))).mono (fun hh => ?_)
        (fun _ hm => hm.of_eq h4 h5)
      exact h6.closed (HasAxis.closed false true) (good_indexed.mp h).1 _
        (hasAxis_child hh rfl c (by simp [children]))
    case indexedOption p index c =>
      refine (throughOption_tot (c := indexedOption p index c) h (.inl ⟨_, _, _, rfl⟩) hnull
        (fun next g1 g2 g3 g4 => ?_)).mono (fun h => h) (fun _ hm => ⟨hm.2, fun _ => hm.1⟩)
      simp only [inner] at g2
      refine (ih g1 (a := b + 1) (by omega) (by omega) (hz.imp_right (fun hz =>
          g4.closed ZeroBased.closed (good_indexedOption.mp h).1 0
            (allNodes_child hz (by simp [children, inner]))))).mono (fun hh => ?_)
        (fun _ hm => hm.toMaps)
      exact g4.closed (HasAxis.closed false true) (good_indexedOption.mp h).1 _
        (hasAxis_child hh rfl c (by simp [children]))
    case byteMasked p mask vw c =>
      refine (throughOption_tot (c := byteMasked p mask vw c) h (.inr ⟨_, _, _, _, rfl⟩) hnull
        (fun next g1 g2 g3 g4 => ?_)).mono (fun h => h) (fun _ hm => ⟨hm.2, fun _ => hm.1⟩)
      simp only [inner] at g2
      refine (ih g1 (a := b + 1) (by omega) (by omega) (hz.imp_right (fun hz =>
          g4.closed ZeroBased.closed (good_byteMasked.mp h).2 0
            (allNodes_child hz (by simp [children, inner]))))).mono (fun hh => ?_)
        (fun _ hm => hm.toMaps)
      exact g4.closed (HasAxis.closed false true) (good_byteMasked.mp h).2 _
        (hasAxis_child hh rfl c (by simp [children]))
    case bitMasked p mask vw length lsb c =>
      obtain ⟨bm, h1, h2, h3, h4⟩ := toByteMasked_bit h
      rw [h1, bind_ok]
      refine (ih h3 (a := b + 1) (by simp only [rank]; omega) (by omega) (hz.imp_right (fun hz =>
          .mk trivial (fun d hd => allNodes_child hz (by simpa [children] using hd))))).mono
        (fun hh => ?_) (fun _ hm => hm.of_eq h2 h4)
      exact .thru rfl (fun d hd => hasAxis_child hh rfl d (by simpa [children] using hd))
    case unmasked p c =>
      refine ((ih (good_unmasked.mp h) (a := b + 1) (by omega) (by omega) (hz.imp_right (fun hz =>
          allNodes_child hz (by simp [children])))).mono
        (fun hh => hasAxis_child hh rfl c (by simp [children])) (fun _ h => h)).bind
        (fun next hm => .ok ?_)
      exact MapsG.unmasked hm
    case record p keys cs length =>
      obtain ⟨hlen, hcs⟩ := good_record.mp h
      refine (mapR_tot (P := fun c c' => MapsG True c c' (Val.mapAxis false Val.count (b + 1)))
        (fun c hc => (ih (hcs c hc) (a := b + 1) (by have := rank_le_rankAll hc; omega)
          (by omega) (hz.imp_right (fun hz => allNodes_child hz (by simpa [children] using hc)))).mono
          (fun hh => hasAxis_child hh rfl c (by simpa [children] using hc)) (fun _ h => h))).bind
        (fun cs' hm => .ok ?_)
      refine MapsG.record h (hm.imp (fun _ _ h => h.toMaps)) (Nat.le_refl _) ?_ (fun _ => rfl)
      intro d hd
      obtain ⟨e, he, hr⟩ := forall₂_mem hm hd
      rw [hr.exact trivial]; exact hlen e he
    case union p tags index cs => exact .err not_hasAxis_union

end Content
end Awk
