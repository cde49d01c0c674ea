import Verif.Lemmas.BroadcastApply
/-
Broadcasting flat arrays and lists of numbers succeeds if the lengths agree.
-/

namespace Awk
open R

namespace Content

/-- A NumpyArray. -/
def isNumpy : Content → Bool
  | numpy .. => true
  | _ => false

theorem range_numpy {d c' : Content} (hd : d.isNumpy = true) {a b : Int} (h : d.range a b = ok c') :
    c'.isNumpy = true := by
  cases d <;> simp only [isNumpy, Bool.false_eq_true] at hd
  case numpy p dt data =>
    simp only [Content.range, numpyRange, bind_eq_ok] at h
    obtain ⟨_, _, h⟩ := h
    simp only [ok.injEq] at h; subst h; rfl

theorem gathered_numpy {d c' : Content} (hd : d.isNumpy = true) (h : Gathered c' d) :
    c'.isNumpy = true := by
  rcases h with rfl | ⟨idx, lz, _, h⟩
  · exact hd
  · cases d <;> simp only [isNumpy, Bool.false_eq_true] at hd
    case numpy p dt data =>
      simp only [carry] at h
      split at h
      · split at h
        · simp only [ok.injEq] at h; subst h; rfl
        · exact range_numpy rfl h
      · rw [bind_eq_ok] at h
        obtain ⟨d, _, h⟩ := h
        simp only [ok.injEq] at h; subst h; rfl

theorem FlatOrLists.cases {c : Content} (h : FlatOrLists c) : c.isNumpy = true ∨
    (c.isJagged = true ∧ ∀ d ∈ c.children, d.isNumpy = true) := by
  cases c <;> simp only [FlatOrLists] at h
  case numpy => exact .inl rfl
  case listOffset p o d =>
    cases d <;> simp only [FlatOrLists] at h
    exact .inr ⟨rfl, by simp [children, isNumpy]⟩
  case listArray p starts stops d =>
    cases d <;> simp only [FlatOrLists] at h
    exact .inr ⟨rfl, by simp [children, isNumpy]⟩

theorem FlatOrLists.nodes {c : Content} (h : FlatOrLists c) : AllNodes BcastNode c := by
  cases c <;> simp only [FlatOrLists] at h
  case numpy => rw [allNodes_iff]; simp [BcastNode, children]
  case listOffset p o d =>
    cases d <;> simp only [FlatOrLists] at h
    rw [allNodes_iff]
    refine ⟨h.1, ?_⟩
    simp only [children, List.mem_singleton, forall_eq]
    rw [allNodes_iff]; simp [BcastNode, children]
  case listArray p starts stops d =>
    cases d <;> simp only [FlatOrLists] at h
    rw [allNodes_iff]
    refine ⟨h.1, ?_⟩
    simp only [children, List.mem_singleton, forall_eq]
    rw [allNodes_iff]; simp [BcastNode, children]

theorem lens_of_val {c : Content} (h : Bin c) (hj : c.isJagged = true) {i : Nat} (hi : i < c.len)
    {xs : List Val} (hx : c.valD i = .list xs) : xs.length = c.lens i := by
  cases c <;> simp only [isJagged, Bool.false_eq_true] at hj
  case listArray p starts stops d =>
    have hp := h.nodes.here
    simp only [BcastNode] at hp
    obtain ⟨hl, _, _⟩ := good_listArray.mp h.good
    simp only [Content.len] at hi
    rw [valD_listArray h.good hi (by omega), wrapList, hp] at hx
    simp only [Val.list.injEq] at hx
    rw [← hx, lens_listArray h.good hi]
    simp [pairLen, hi, show i < stops.length by omega]
  case listOffset p o d =>
    have hp := h.nodes.here
    simp only [BcastNode] at hp
    simp only [Content.len] at hi
    rw [valD_listOffset h.good (by omega), wrapList, hp] at hx
    simp only [Val.list.injEq] at hx
    rw [← hx, lens_listOffset h.good (by omega)]
    simp [pairLen, show i < o.length by omega, List.getElem?_drop,
          show 1 + i = i + 1 by omega, show i + 1 < o.length by omega]

theorem toOffsets_complete {c : Content} (h : Bin c) (hf : FlatOrLists c) {L : Nat → Nat}
    (hL : c.isJagged = true → ∀ i, i < c.len → c.lens i = L i) :
    ∃ c', toOffsets (offsTo L c.len) c = ok c' ∧ c'.isNumpy = true ∧ c'.len = sumTo L c.len := by
  rcases hf.cases with hn | ⟨hj, hn⟩
  · obtain ⟨d, e1, e2, e3, e4, e5⟩ := regularBroadcast_one h.good L
    refine ⟨d, ?_, gathered_numpy hn e3, e4⟩
    rw [← e1]
    cases c <;> first | rfl | cases hn
  · replace hL := hL hj
    cases c <;> simp only [isJagged, Bool.false_eq_true] at hj
    case listArray p starts stops c =>
      have hn := hn c (by simp [children])
      obtain ⟨hl, hc, hpair⟩ := good_listArray.mp h.good
      obtain ⟨d, h1, h2, _, h4, h5, h6⟩ := listBroadcast_ok hc (Nat.le_refl _) hl hpair
      simp only [Content.len] at hL ⊢
      have hL' : ∀ i, i < starts.length → pairLen starts stops i = L i := by
        intro i hi
        rw [← hL i hi, lens_listArray h.good hi]
      rw [offsTo_congr hL'] at h1
      exact ⟨d, h1, gathered_numpy hn h5, by rw [h4, sumTo_congr hL']⟩
    case listOffset p o c =>
      have hn := hn c (by simp [children])
      obtain ⟨hl, hc, hpair⟩ := good_listOffset.mp h.good
      obtain ⟨m1, m2, m3⟩ := make_pairs hpair
      obtain ⟨d, h1, h2, _, h4, h5, h6⟩ := listBroadcast_ok hc (n := o.length - 1) (by omega) (by omega)
        (fun i hi => m3 i (by omega) (by omega))
      simp only [Content.len] at hL ⊢
      have hL' : ∀ i, i < o.length - 1 → pairLen (makeStarts o) (makeStops o) i = L i := by
        intro i hi
        rw [← hL i hi, lens_listOffset h.good (by omega), pairLen_make (by omega)]
      rw [offsTo_congr hL'] at h1
      exact ⟨d, h1, gathered_numpy hn h5, by rw [h4, sumTo_congr hL']⟩

/-- The position after the last list. -/
def lastStop (c : Content) : Int := c.hi (c.len - 1)

theorem getitemRange_numpy {d : Content} {k : Int} (hd : d.Good) (hn : d.isNumpy = true) (h0 : 0 ≤ k)
    (hk : k ≤ d.len) (hb : k < 2 ^ 63 - 1) :
    ∃ c', getitemRange d 0 k = ok c' ∧ c'.isNumpy = true ∧ (c'.len : Int) = k := by
  have key : regularize_rangeslice 0 k true ((0 : Int) != kSliceNone) (k != kSliceNone) d.len = (0, k) := by
    have e0 : ((0 : Int) != kSliceNone) = true := by decide
    have e1 : (k != kSliceNone) = true := by
      simp only [bne_iff_ne, ne_eq, kSliceNone]; omega
    have e2 : ¬ (k < 0) := by omega
    have e3 : ¬ (k > d.len) := by omega
    have e4 : ¬ ((d.len : Int) < 0) := by omega
    rw [e0, e1]
    simp only [regularize_rangeslice, e2, e3, if_true, if_false, Bool.not_true, Bool.false_eq_true]
    simp [e4, e2]
  obtain ⟨e, e1, _, _, e4, _⟩ := range_good hd (a := 0) (b := k.toNat) (by omega) (by omega)
  refine ⟨e, ?_, range_numpy hn e1, by have := e4.1; omega⟩
  unfold getitemRange
  rw [key]
  simp only
  rw [← e1]
  congr 1; omega

theorem foldl_max_le {l : List Int} {b : Int} : ∀ {a : Int}, a ≤ b → (∀ x ∈ l, x ≤ b) → l.foldl max a ≤ b := by
  induction l with
  | nil => intro a ha _; simpa using ha
  | cons y l ih =>
    intro a ha h
    simp only [List.foldl_cons]
    exact ih (by have := h y (by simp); omega) (fun x hx => h x (by simp [hx]))

/-- The ends of adjacent lists do not decrease. -/
theorem adjacent_last {p : Params} {starts stops : List Int} {d : Content} {n : Nat}
    (hg : (listArray p starts stops d).Good) (hl : (listArray p starts stops d).len = n) (hn : 0 < n)
    (ha : adjacent starts stops = true) :
    stops.foldl max (stops.headD 0) = stops[n - 1]?.getD 0 := by
  obtain ⟨a1, a2, a3⟩ := adjacent_len hg hl hn ha
  obtain ⟨_, _, hpair⟩ := good_listArray.mp hg
  have hmono : ∀ i (hi : i + 1 < stops.length), stops[i] ≤ stops[i + 1] := by
    intro i hi
    have h1 := a3 i (by omega)
    rw [List.getElem?_eq_getElem (by omega), List.getElem?_eq_getElem (by omega)] at h1
    simp only [Option.some.injEq] at h1
    rw [h1]
    exact (hpair (i + 1) (by omega)).le
  have hm := mono_of_le hmono
  have hle : ∀ x ∈ stops, x ≤ stops[n - 1] := by
    intro x hx
    obtain ⟨i, hi, rfl⟩ := List.getElem_of_mem hx
    exact hm i (n - 1) (by omega) (by omega)
  rw [List.getElem?_eq_getElem (by omega), Option.getD_some]
  have hh : stops.headD 0 ∈ stops := by
    cases stops with
    | nil => simp at a2; omega
    | cons x xs => simp
  exact Int.le_antisymm (foldl_max_le (hle _ hh) hle) ((foldl_max_ge stops _).2 _ (List.getElem_mem _))

theorem sameNext_complete {c : Content} (h : Bin c) (hf : FlatOrLists c) (hj : c.isJagged = true)
    (hn : 0 < c.len) (ha : ∀ p starts stops d, c = listArray p starts stops d → adjacent starts stops = true) :
    ∃ c', sameNext c = ok c' ∧ c'.isNumpy = true ∧ (c'.len : Int) = c.lastStop := by
  cases c <;> simp only [isJagged, Bool.false_eq_true] at hj
  case listArray p starts stops d =>
    obtain ⟨hl, hc, hpair⟩ := good_listArray.mp h.good
    have hadj := ha _ _ _ _ rfl
    obtain ⟨a1, a2, a3⟩ := adjacent_len h.good rfl hn hadj
    simp only [Content.len] at a1 a2 a3 hn
    simp only [sameNext, lastStop, Content.hi, Content.len]
    rw [if_neg (by omega), adjacent_last h.good rfl hn hadj]
    simp only [Content.len]
    cases d <;> simp only [FlatOrLists] at hf
    case numpy p' dt data =>
      obtain ⟨_, hb, hs⟩ := hf
      rw [List.getElem?_eq_getElem (by omega), Option.getD_some]
      obtain ⟨h1, h2⟩ := hs _ (List.getElem_mem (show starts.length - 1 < stops.length by omega))
      exact getitemRange_numpy hc rfl h1 h2 (by omega)
  case listOffset p o d =>
    obtain ⟨hl, hc, hpair⟩ := good_listOffset.mp h.good
    simp only [Content.len] at hn
    simp only [sameNext, lastStop, Content.hi, Content.len]
    rw [rd_nat_ok (by omega), bind_ok, show o.length - 1 - 1 + 1 = o.length - 1 by omega,
      List.getElem?_eq_getElem (by omega), Option.getD_some]
    cases d <;> simp only [FlatOrLists] at hf
    case numpy p' dt data =>
      obtain ⟨_, hb, hs⟩ := hf
      obtain ⟨h1, h2⟩ := hs _ (List.getElem_mem (show o.length - 1 < o.length by omega))
      exact getitemRange_numpy hc rfl h1 h2 (by omega)

theorem same_adjacent {c : Content} : ∀ {cs : List Content} {o : Option (List Int)}, c ∈ cs →
    allSameOffsets o cs = true → c.isFlat = false ∧
      ∀ p starts stops d, c = listArray p starts stops d → adjacent starts stops = true := by
  intro cs
  induction cs with
  | nil => intro o hc; cases hc
  | cons e cs ih =>
    intro o hc h
    rcases List.mem_cons.mp hc with hc' | hc'
    · subst hc'
      refine ⟨?_, ?_⟩
      · cases c <;> first | rfl | (simp [allSameOffsets] at h)
      · rintro p starts stops d rfl
        simp only [allSameOffsets] at h
        split at h
        · cases h
        · rename_i ha; simpa using ha
    · clear hc
      cases e <;> simp only [allSameOffsets, Bool.false_eq_true] at h <;>
        (repeat' split at h) <;> first | cases h | exact ih hc' h

theorem bcastApply_numpy {f : Nat} {cs : List Content} {n : Nat} (hn : ∀ c ∈ cs, c.isNumpy = true)
    (hl : ∀ c ∈ cs, c.len = n) : bcastApply (f + 1) cs = ok cs := by
  have hr : rightBroadcast cs = cs := by
    unfold rightBroadcast
    rw [if_neg]
    rw [List.any_eq_true]
    rintro ⟨c, hc, h⟩
    have := hn c hc
    cases c <;> simp_all only [isNumpy, isListNode, Bool.false_eq_true]
  simp only [bcastApply, hr]
  rw [if_neg, if_pos]
  · rw [List.all_eq_true]
    intro c hc
    have := hn c hc
    cases c <;> first | rfl | cases this
  · rw [List.any_eq_true]
    rintro ⟨c, hc, h⟩
    cases cs with
    | nil => cases hc
    | cons d ds => simp [hl c hc, hl d (by simp)] at h

theorem mapR_ok_of {α β : Type} {f : α → R β} {P : β → Prop} : ∀ {l : List α},
    (∀ a ∈ l, ∃ b, f a = ok b ∧ P b) → ∃ l', mapR f l = ok l' ∧ ∀ b ∈ l', P b := by
  intro l
  induction l with
  | nil => intro _; exact ⟨[], rfl, by simp⟩
  | cons a l ih =>
    intro h
    obtain ⟨b, h1, h2⟩ := h a (by simp)
    obtain ⟨l', h3, h4⟩ := ih (fun a ha => h a (by simp [ha]))
    refine ⟨b :: l', by simp [mapR, h1, h3], ?_⟩
    simpa using ⟨h2, h4⟩

/-- Flat arrays and lists of numbers of the same lengths are broadcast. -/
theorem bcastApply_complete {f n : Nat} {cs : List Content} (hn : 0 < n) (hb : ∀ c ∈ cs, Bin c)
    (hf : ∀ c ∈ cs, FlatOrLists c) (hl : ∀ c ∈ cs, c.len = n)
    (ha : ∀ i, i < n → ∃ k, ∀ c ∈ cs, ∀ xs, c.valD i = .list xs → xs.length = k) :
    ∃ outs, bcastApply (f + 2) cs = ok outs := by
  by_cases hnum : ∀ c ∈ cs, c.isNumpy = true
  · exact ⟨cs, bcastApply_numpy hnum hl⟩
  simp only [Classical.not_forall] at hnum
  obtain ⟨c0, hc0, hn0⟩ := hnum
  have hj0 : c0.isJagged = true := by
    rcases (hf c0 hc0).cases with h | h
    · exact absurd h hn0
    · exact h.1
  rw [bcastApply]
  simp only [rightBroadcast_eq BcastNode.fam hb]
  have hno : ∀ (P : Content → Bool), (∀ c, P c = true → c.isNumpy = false ∧ c.isJagged = false) →
      ¬ (cs.any P = true) := by
    intro P hP h
    rw [List.any_eq_true] at h
    obtain ⟨c, hc, h⟩ := h
    obtain ⟨h1, h2⟩ := hP c h
    rcases (hf c hc).cases with h | h
    · rw [h1] at h; cases h
    · rw [h2] at h; exact absurd h.1 (by simp)
  rw [if_neg, if_neg, if_neg, if_neg, if_neg, if_neg, if_pos, if_neg, if_neg]
  · by_cases hs : allSameOffsets none cs = false
    · rw [if_pos hs]
      unfold jaggedStep
      cases hfind : cs.find? isJagged with
      | none =>
        rw [List.find?_eq_none] at hfind
        exact absurd hj0 (hfind c0 hc0)
      | some first =>
        have hj := List.find?_some hfind
        have hm := List.mem_of_find?_eq_some hfind
        simp only
        rw [compactOffsets_ok (hb _ hm) hj, bind_ok, hl _ hm]
        obtain ⟨cs', h1, h2⟩ := mapR_ok_of (l := cs) (f := toOffsets (offsTo first.lens n))
          (P := fun c' => c'.isNumpy = true ∧ c'.len = sumTo first.lens n) (fun c hc => by
            obtain ⟨c', e1, e2, e3⟩ := toOffsets_complete (hb c hc) (hf c hc) (L := first.lens)
              (fun hjc i hi => by
                have hi' : i < n := by rw [← hl c hc]; exact hi
                obtain ⟨k, hk⟩ := ha i hi'
                obtain ⟨xs, hx⟩ := jagged_val BcastNode.fam (hb c hc) hjc hi
                obtain ⟨ys, hy⟩ := jagged_val BcastNode.fam (hb _ hm) hj (by rw [hl _ hm]; exact hi')
                rw [← lens_of_val (hb c hc) hjc hi hx,
                  ← lens_of_val (hb _ hm) hj (by rw [hl _ hm]; exact hi') hy,
                  hk c hc xs hx, hk _ hm ys hy])
            rw [hl c hc] at e1 e3
            exact ⟨c', e1, e2, e3⟩)
        rw [h1, bind_ok, bcastApply_numpy (fun c hc => (h2 c hc).1) (fun c hc => (h2 c hc).2), bind_ok]
        exact ⟨_, rfl⟩
    · rw [if_neg hs]
      simp only [Bool.not_eq_false] at hs
      have hjag : ∀ c ∈ cs, c.isJagged = true := by
        intro c hc
        rcases (hf c hc).cases with h | h
        · have := (same_adjacent hc hs).1
          cases c <;> simp_all only [isNumpy, isFlat, Bool.false_eq_true, reduceCtorEq]
        · exact h.1
      obtain ⟨offs, hfit⟩ := fits_of_none (fun c hc => (hb c hc).good) hl hjag hn hs
      have hls : ∀ c ∈ cs, c.lastStop = offs[n]?.getD 0 := by
        intro c hc
        unfold lastStop
        rw [hl c hc, (hfit c hc (n - 1) (by omega)).2, show n - 1 + 1 = n by omega]
      unfold sameStep
      obtain ⟨cs', h1, h2⟩ := mapR_ok_of (l := cs) (f := sameNext)
        (P := fun c' => c'.isNumpy = true ∧ c'.len = (offs[n]?.getD 0).toNat) (fun c hc => by
          obtain ⟨c', e1, e2, e3⟩ := sameNext_complete (hb c hc) (hf c hc) (hjag c hc)
            (by rw [hl c hc]; exact hn) (same_adjacent hc hs).2
          rw [hls c hc] at e3
          exact ⟨c', e1, e2, by omega⟩)
      rw [h1, bind_ok, bcastApply_numpy (fun c hc => (h2 c hc).1) (fun c hc => (h2 c hc).2), bind_ok]
      obtain ⟨outs, h3, _⟩ := mapR_ok_of (l := cs') (f := sameLists cs) (P := fun _ => True)
        (fun o _ => by
          unfold sameLists
          split
          · exact ⟨_, rfl, trivial⟩
          · rename_i hno
            split
            · exact ⟨_, rfl, trivial⟩
            · rename_i hno'
              exfalso
              cases c0 <;> simp only [isJagged, Bool.false_eq_true] at hj0
              case listArray p starts stops d =>
                cases hq : cs.reverse.find? (fun c => match c with | listArray .. => true | _ => false) with
                | none =>
                  rw [List.find?_eq_none] at hq
                  exact absurd rfl (hq _ (List.mem_reverse.mpr hc0))
                | some q =>
                  have := List.find?_some hq
                  cases q <;> first | exact hno' _ _ _ _ hq | cases this
              case listOffset p o d =>
                cases hq : cs.reverse.find? (fun c => match c with | listOffset .. => true | _ => false) with
                | none =>
                  rw [List.find?_eq_none] at hq
                  exact absurd rfl (hq _ (List.mem_reverse.mpr hc0))
                | some q =>
                  have := List.find?_some hq
                  cases q <;> first | exact hno _ _ _ hq | cases this)
      exact ⟨outs, h3⟩
  · rw [List.all_eq_true]
    intro h
    have := h c0 hc0
    rw [hj0] at this; cases this
  · rw [List.any_eq_true]
    rintro ⟨c, hc, h⟩
    have hfc := hf c hc
    unfold isStringList at h
    cases c <;> first | (simp only [isListNode, Bool.false_and, Bool.false_eq_true] at h) | skip
    all_goals simp only [FlatOrLists] at hfc
    all_goals
      rename_i d
      cases d <;> simp only at hfc
      simp [params, hfc.1] at h
  · rw [List.any_eq_true]
    refine ⟨c0, hc0, ?_⟩
    cases c0 <;> first | rfl | cases hj0
  · exact hno _ (fun c h => by cases c <;> first | exact ⟨rfl, rfl⟩ | cases h)
  · exact hno _ (fun c h => by cases c <;> first | exact ⟨rfl, rfl⟩ | cases h)
  · exact hno _ (fun c h => by cases c <;> first | exact ⟨rfl, rfl⟩ | cases h)
  · exact hno _ (fun c h => by cases c <;> first | exact ⟨rfl, rfl⟩ | cases h)
  · rw [List.all_eq_true]
    intro h
    apply hn0
    have := h c0 hc0
    cases c0 <;> first | rfl | cases this
  · rw [List.any_eq_true]
    rintro ⟨c, hc, h⟩
    cases cs with
    | nil => cases hc
    | cons d ds => simp [hl c hc, hl d (by simp)] at h

theorem idxRange_mem {l l' : List Int} {a b : Int} (h : idxRange l a b = ok l') : ∀ x ∈ l', x ∈ l := by
  unfold idxRange at h
  split at h
  · cases h
  · split at h
    · simp only [ok.injEq] at h; subst h; simp
    · split at h
      · cases h
      · simp only [ok.injEq] at h; subst h
        exact fun x hx => List.mem_of_mem_drop (List.mem_of_mem_take hx)

theorem range_all {c : Content} (hf : FlatOrLists c) {c' : Content} {a b : Int}
    (h1 : c.range a b = ok c') : FlatOrLists c' := by
  cases c <;> simp only [FlatOrLists] at hf
  case numpy p dt data =>
    have := range_numpy rfl h1
    cases c' <;> first | trivial | cases this
  case listOffset p o d =>
    cases d <;> simp only [FlatOrLists] at hf
    simp only [Content.range, bind_eq_ok, ok.injEq] at h1
    obtain ⟨o', h2, rfl⟩ := h1
    exact ⟨hf.1, hf.2.1, fun x hx => hf.2.2 x (idxRange_mem h2 x hx)⟩
  case listArray p starts stops d =>
    cases d <;> simp only [FlatOrLists] at hf
    simp only [Content.range, bind_eq_ok, ok.injEq] at h1
    obtain ⟨starts', _, stops', h2, rfl⟩ := h1
    exact ⟨hf.1, hf.2.1, fun x hx => hf.2.2 x (idxRange_mem h2 x hx)⟩

theorem broadcastArrays_complete {f n : Nat} {cs : List Content} (hn : 0 < n) (hb : ∀ c ∈ cs, Bin c)
    (hf : ∀ c ∈ cs, FlatOrLists c) (hl : ∀ c ∈ cs, c.len = n)
    (ha : ∀ i, i < n → ∃ k, ∀ c ∈ cs, ∀ xs, c.valD i = .list xs → xs.length = k) :
    IsOk (broadcastArrays (f + 3) cs) := by
  by_cases hne : cs = []
  · subst hne; exact ⟨[], rfl⟩
  unfold broadcastArrays
  rw [show (fun c : Content => regular {} c c.len 1) = pack from rfl, bcastApply_pack hne hb]
  unfold regularStep
  have hN : ((cs.map pack).map regularSize).foldl max 0 = n := by
    rw [List.map_map]
    refine foldl_max_const (fun x hx => ?_) (by simpa using hne)
    obtain ⟨c, hc, rfl⟩ := List.mem_map.mp hx
    exact hl c hc
  simp only [hN]
  have h1 : ∃ cs', mapR (bcastRegular n) (cs.map pack) = ok cs' ∧
      List.Forall₂ (fun c c' => Bin c' ∧ FlatOrLists c' ∧ c'.len = n ∧
        ∀ i, i < n → c'.valD i = c.valD i) cs cs' := by
    have h2 : ∀ c ∈ cs, ∃ c', bcastRegular n (pack c) = ok c' ∧ FlatOrLists c' := by
      intro c hc
      have hlen := pack_len c
      simp only [pack] at hlen
      obtain ⟨b, hb1, hb2, hb3⟩ := getitemRange_zero c c.len
      have hbe : b = c.len := Nat.le_antisymm hb1 (hb3 c.len (by omega) (by omega))
      subst hbe
      obtain ⟨e, e1, _⟩ := range_good (hb c hc).good (a := 0) (b := c.len) (by omega) (by omega)
      refine ⟨e, ?_, range_all (hf c hc) e1⟩
      simp only [pack, bcastRegular, hlen, Nat.one_mul, hb2]
      rw [if_neg (by have := hl c hc; omega), if_pos (hl c hc)]
      exact e1
    obtain ⟨cs', h3, _⟩ := mapR_ok_of (l := cs.map pack) (f := bcastRegular n) (P := fun _ => True)
      (fun d hd => by
        obtain ⟨c, hc, rfl⟩ := List.mem_map.mp hd
        obtain ⟨c', h, _⟩ := h2 c hc
        exact ⟨c', h, trivial⟩)
    refine ⟨cs', h3, ?_⟩
    rw [mapR_forall₂, List.forall₂_map_left_iff] at h3
    refine fa2_imp_mem h3 (fun c hc c' h => ?_)
    obtain ⟨_, r1, r2, r3⟩ := bcastRegular_pack BcastNode.fam (hb c hc) h
    obtain ⟨c'', h4, h5⟩ := h2 c hc
    rw [h] at h4
    simp only [ok.injEq] at h4; subst h4
    refine ⟨r1, h5, r2, fun i hi => ?_⟩
    rw [r3 i hi]
    split
    · have := hl c hc
      have : i = 0 := by omega
      rw [this]
    · rfl
  obtain ⟨cs', h1, h2⟩ := h1
  rw [h1, bind_ok]
  obtain ⟨outs, h3⟩ := bcastApply_complete (f := f) hn
    (fun c hc => (forall₂_mem h2 hc).choose_spec.2.1)
    (fun c hc => (forall₂_mem h2 hc).choose_spec.2.2.1)
    (fun c hc => (forall₂_mem h2 hc).choose_spec.2.2.2.1) (fun i hi => by
      obtain ⟨k, hk⟩ := ha i hi
      refine ⟨k, fun c' hc' xs hx => ?_⟩
      obtain ⟨c, hc, h⟩ := forall₂_mem h2 hc'
      exact hk c hc xs (by rw [← h.2.2.2 i hi]; exact hx))
  rw [h3, bind_ok]
  obtain ⟨m, hbo⟩ := bcastApply_sound _ _ _ (fun c hc => (forall₂_mem h2 hc).choose_spec.2.1) h3
  have hm : m = n := by
    obtain ⟨c, hc⟩ := List.exists_mem_of_ne_nil cs hne
    obtain ⟨c', hc', h⟩ := fa2_left h2 hc
    rw [← hbo.len c' hc']; exact h.2.2.1
  subst hm
  simp only [bind_ok]
  obtain ⟨l, h4, _⟩ := mapR_ok_of (f := bcastUnpack) (P := fun _ => True)
    (l := outs.map (fun o => regular {} o m ((cs'.map len).foldl max 0))) (fun d hd => by
      obtain ⟨o, ho, rfl⟩ := List.mem_map.mp hd
      obtain ⟨hg, hlo⟩ := hbo.good o ho
      obtain ⟨e, e1, _⟩ := range_good hg (a := 0) (b := m) (by omega) (by omega)
      refine ⟨e, ?_, trivial⟩
      simp only [bcastUnpack]
      rw [if_neg]
      · exact e1
      · simp only [Content.len, hlo]
        rw [if_pos (by omega), Nat.div_self hn]; omega)
  exact ⟨l, h4⟩

end Content
end Awk
