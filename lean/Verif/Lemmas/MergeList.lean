import Verif.Lemmas.MergeOut
/-
The merge of list arrays.
-/

namespace Awk
open R

theorem GoodPair.shift {s t : Int} {n base m : Nat} (h : GoodPair s t n) (hm : base + n ≤ m) :
    GoodPair (s + base) (t + base) m := by
  rcases h with h | h
  · left; omega
  · right; omega

namespace Content

theorem isContiguous_range (n : Nat) :
    isContiguous ((List.range n).map (fun (i : Nat) => (i : Int))) = true := by
  have key : ∀ m k : Nat, isContiguousFrom ((List.range' k m).map (fun (i : Nat) => (i : Int))) k = true := by
    intro m
    induction m with
    | zero => intro k; rfl
    | succ m ih =>
      intro k
      simp only [List.range'_succ, List.map_cons, isContiguousFrom, ne_eq, not_true_eq_false, if_false]
      exact_mod_cast ih (k + 1)
  rw [List.range_eq_range']
  exact key n 0

/-- A full contiguous carry returns the array itself, unless it is a record. -/
theorem carry_full {c : Content} (h : ∀ p keys cs n, c ≠ record p keys cs n) :
    c.carry true ((List.range c.len).map (fun (i : Nat) => (i : Int))) = ok c := by
  cases c
  case record p keys cs n => exact absurd rfl (h p keys cs n)
  case empty p => simp [carry, len]
  all_goals
    simp only [carry, isContiguous_range, if_true, List.length_map, List.length_range]

theorem regularParts_ok {nu : Without} {p : Params} {c : Content} {size zeros : Nat}
    (h : MergeNode nu (regular p c size zeros)) :
    (regular p c size zeros).listParts
      = ok (offsTo (fun _ => size) (regular p c size zeros).len, c) := by
  generalize hn : (regular p c size zeros).len = n
  simp only [listParts, hn, regularCompact]
  rw [RegularArray_compact_offsets_ok, bind_ok]
  unfold regularBroadcast
  rw [if_neg (by simp), rd_offsTo_zero, bind_ok, if_neg (by simp), if_neg (by simp)]
  by_cases h1 : size = 1
  · subst h1
    have hc : n = c.len := by
      rw [← hn]; simp [len]
    rw [if_pos rfl, rd_offsTo_last, bind_ok, offsTo_length, broadcast_size1_ok, bind_ok, hc,
      carry_full, bind_ok]
    rintro p keys cs n rfl
    simp [MergeNode] at h
  · rw [if_neg h1]
    have hk : RegularArray_broadcast_tooffsets (offsTo (fun _ => size) n)
        (offsTo (fun _ => size) n).length size = ok () := by
      unfold RegularArray_broadcast_tooffsets
      rw [show (offsTo (fun _ => size) n).length - 1 = n by simp, forN_unit]
      intro i hi
      rw [rd_offsTo (by omega), bind_ok, rd_offsTo (by omega), bind_ok]
      dsimp only
      rw [sumTo_diff, if_neg (by omega), if_neg (by omega)]
    rw [hk, bind_ok, bind_ok]

/-- The pairs of starts and stops of a list array with the content `d`. -/
structure IsRows (c : Content) (starts stops : List Int) (d : Content) : Prop where
  child : c.children = [d]
  lstarts : starts.length = c.len
  lstops : stops.length = c.len
  pairs : List.Forall₂ (fun s t => GoodPair s t d.len) starts stops
  cv : c.cv = List.zipWith (lv c.params d.cv) starts stops
  fill : ∀ done1 rest1 done2 rest2 base n, done1.length = n → done2.length = n →
    c.len ≤ rest1.length → c.len ≤ rest2.length →
    fillListOf (done1 ++ rest1, done2 ++ rest2, base, n) c
      = ok (done1 ++ starts.map (· + (base : Int)) ++ rest1.drop c.len,
          done2 ++ stops.map (· + (base : Int)) ++ rest2.drop c.len, base + d.len, n + c.len)

theorem isRows_listArray {p : Params} {starts stops : List Int} {d : Content}
    (h : (listArray p starts stops d).Good) :
    IsRows (listArray p starts stops d) starts (stops.take starts.length) d := by
  obtain ⟨hl, hc, hp⟩ := good_listArray.mp h
  refine ⟨rfl, rfl, by simp [len]; omega, ?_, ?_, ?_⟩
  · refine List.forall₂_iff_get.mpr ⟨by simp; omega, fun i h1 h2 => ?_⟩
    simpa using hp i h1
  · rw [cv_listArray h]
    simp only [params]
    rw [List.zipWith_eq_zipWith_take_min (l₂ := stops), List.zipWith_eq_zipWith_take_min (l₂ := stops.take _)]
    simp [hl, List.take_take]
  · intro done1 rest1 done2 rest2 base n h1 h2 h3 h4
    simp only [len] at h3 h4 ⊢
    subst h1
    simp only [fillListOf, fillList]
    have := ListArray_fill_ok (done1 := done1) (done2 := done2) (base := base) rfl hl h3 h4
    rw [h2] at this
    rw [this, bind_ok]

theorem isRows_offsets {c : Content} {offs : List Int} {d : Content} (hch : c.children = [d])
    (ho : offs.length = c.len + 1)
    (hp : ∀ i (h : i + 1 < offs.length), GoodPair offs[i] offs[i + 1] d.len)
    (hcv : c.cv = List.zipWith (lv c.params d.cv) (makeStarts offs) (makeStops offs))
    (hf : ∀ st, fillListOf st c = fillList st (makeStarts offs) (makeStops offs) (offs.length - 1) d.len) :
    IsRows c (makeStarts offs) (makeStops offs) d := by
  obtain ⟨h1, h2, h3⟩ := make_pairs hp
  refine ⟨hch, by omega, by omega, ?_, hcv, ?_⟩
  · exact List.forall₂_iff_get.mpr ⟨by omega, fun i h h' => h3 i h h'⟩
  · intro done1 rest1 done2 rest2 base n e1 e2 e3 e4
    subst e1
    rw [hf]
    simp only [fillList]
    rw [show offs.length - 1 = c.len by omega]
    have := ListArray_fill_ok (done1 := done1) (done2 := done2) (base := base) (n := c.len)
      (starts := makeStarts offs) (stops := makeStops offs) (by omega) (by omega) e3 e4
    rw [e2] at this
    rw [this, bind_ok, List.take_of_length_le (by omega)]

theorem isRows_listOffset {p : Params} {offs : List Int} {d : Content}
    (h : (listOffset p offs d).Good) :
    IsRows (listOffset p offs d) (makeStarts offs) (makeStops offs) d := by
  obtain ⟨hl, hc, hp⟩ := good_listOffset.mp h
  exact isRows_offsets rfl (by simp [len]; omega) hp (cv_listOffset h) (fun st => rfl)

theorem isRows_regular {nu : Without} {p : Params} {size zeros : Nat} {d : Content}
    (h : Input nu (regular p d size zeros)) :
    IsRows (regular p d size zeros)
      (makeStarts (offsTo (fun _ => size) (regular p d size zeros).len))
      (makeStops (offsTo (fun _ => size) (regular p d size zeros).len)) d := by
  have hg := good_regular.mp h.good
  have hlp := regularParts_ok h.nodes.here
  have hp : ∀ i (h : i + 1 < (offsTo (fun _ => size) (regular p d size zeros).len).length),
      GoodPair (offsTo (fun _ => size) (regular p d size zeros).len)[i]
        (offsTo (fun _ => size) (regular p d size zeros).len)[i + 1] d.len := by
    intro i hi
    rw [offsTo_getElem, offsTo_getElem, sumTo_const, sumTo_const]
    simp only [offsTo_length] at hi
    have := regular_bound (p := p) (c := d) (size := size) (zeros := zeros) (i := i) (by omega)
    right
    rw [Nat.add_mul]
    omega
  refine isRows_offsets rfl (by simp) hp ?_ ?_
  · obtain ⟨h1, h2, h3⟩ := make_pairs hp
    rw [offsTo_length] at h1 h2
    apply List.ext_getElem?
    intro i
    rw [List.getElem?_zipWith]
    by_cases hi : i < (regular p d size zeros).len
    · have g := h3 i (by omega) (by omega)
      rw [cv_get hi, valD_regular hg hi, List.getElem?_eq_getElem (by omega),
        List.getElem?_eq_getElem (by omega)]
      simp only [params, Option.some.injEq]
      rw [← lv_seg g]
      simp only [makeStarts, makeStops, List.getElem_take, List.getElem_drop, offsTo_getElem, sumTo_const]
      rw [show 1 + i = i + 1 by omega, Nat.add_mul]
      congr 3
      push_cast; omega
    · rw [cv_none (by omega), List.getElem?_eq_none (by omega)]
  · intro st
    simp only [fillListOf]
    rw [hlp, bind_ok]

theorem isRows_of {nu : Without} {c : Content} (h : Input nu c) (hl : c.isListNode = true) :
    ∃ starts stops d, IsRows c starts stops d := by
  cases c <;> simp only [isListNode, Bool.false_eq_true] at hl
  · exact ⟨_, _, _, isRows_regular h⟩
  · exact ⟨_, _, _, isRows_listArray h.good⟩
  · exact ⟨_, _, _, isRows_listOffset h.good⟩

/-- The content of a list array. -/
def listContent : Content → Option Content
  | regular _ c _ _ => some c
  | listArray _ _ _ c => some c
  | listOffset _ _ c => some c
  | _ => none

theorem listContent_rows {c d : Content} {starts stops : List Int} (hl : c.isListNode = true)
    (h : IsRows c starts stops d) : c.listContent = some d := by
  have := h.child
  cases c <;> simp only [isListNode, Bool.false_eq_true] at hl <;>
    simpa [children, listContent] using this

theorem listContents_ok {cs : List Content}
    (h : ∀ c ∈ cs, c.isEmptyNode = true ∨ c.isListNode = true) :
    listContents cs = ok (cs.filterMap listContent) := by
  induction cs with
  | nil => rfl
  | cons c cs ih =>
    have ih := ih (fun d hd => h d (List.mem_cons_of_mem _ hd))
    have hc := h c List.mem_cons_self
    cases c <;> simp [isEmptyNode, isListNode] at hc <;>
      simp only [listContents, ih, bind_ok, listContent, List.filterMap_cons]

theorem flat_length' {cs : List Content} {l : List Val} (h : l = flat cs) : l.length = totalLen cs := by
  rw [h, flat_length]

theorem fold_lists {nu : Without} {p : Params} {hs : List Content}
    (hi : ∀ c ∈ hs, c.isEmptyNode = true ∨
      (c.isListNode = true ∧ Input nu c ∧ c.params.key = p.key))
    {done1 rest1 done2 rest2 : List Int} {base n : Nat} (h1 : done1.length = n)
    (h2 : done2.length = n) (h3 : rest1.length = totalLen hs) (h4 : rest2.length = totalLen hs) :
    ∃ S T : List Int, foldR fillListOf (done1 ++ rest1, done2 ++ rest2, base, n) hs
        = ok (done1 ++ S, done2 ++ T, base + totalLen (hs.filterMap listContent), n + totalLen hs) ∧
      S.length = T.length ∧
      (∀ m, base + totalLen (hs.filterMap listContent) ≤ m →
        List.Forall₂ (fun s t => GoodPair s t m) S T) ∧
      ∀ pre post : List Val, pre.length = base →
        List.zipWith (lv p (pre ++ flat (hs.filterMap listContent) ++ post)) S T = flat hs := by
  induction hs generalizing done1 rest1 done2 rest2 base n with
  | nil =>
    simp only [totalLen, List.map_nil, List.sum_nil, List.length_eq_zero_iff] at h3 h4
    subst h3 h4
    exact ⟨[], [], by simp [foldR, totalLen], rfl, fun _ _ => .nil, fun _ _ _ => rfl⟩
  | cons c hs ih =>
    have hi' : ∀ c ∈ hs, c.isEmptyNode = true ∨
      (c.isListNode = true ∧ Input nu c ∧ c.params.key = p.key) :=
      fun d hd => hi d (List.mem_cons_of_mem _ hd)
    rw [totalLen_cons] at h3 h4
    rcases hi c List.mem_cons_self with hc | ⟨hl, hin, hk⟩
    · cases c <;> simp [isEmptyNode] at hc
      simp only [len, Nat.zero_add] at h3 h4
      obtain ⟨S, T, g1, g2, g3, g4⟩ := ih hi' h1 h2 h3 h4 (base := base)
      refine ⟨S, T, ?_, g2, ?_, ?_⟩
      · simp only [foldR_cons, fillListOf, bind_ok, List.filterMap_cons, listContent]
        rw [g1, totalLen_cons]; simp [len]
      · simpa only [List.filterMap_cons, listContent] using g3
      · simpa only [List.filterMap_cons, listContent, flat_cons, cv_empty, List.nil_append] using g4
    · obtain ⟨starts, stops, d, hr⟩ := isRows_of hin hl
      have hd := listContent_rows hl hr
      have hlen1 := hr.lstarts
      have hlen2 := hr.lstops
      obtain ⟨S, T, g1, g2, g3, g4⟩ := ih hi' (base := base + d.len) (n := n + c.len)
        (done1 := done1 ++ starts.map (· + (base : Int))) (rest1 := rest1.drop c.len)
        (done2 := done2 ++ stops.map (· + (base : Int))) (rest2 := rest2.drop c.len)
        (by simp; omega) (by simp; omega) (by simp; omega) (by simp; omega)
      refine ⟨starts.map (· + (base : Int)) ++ S, stops.map (· + (base : Int)) ++ T, ?_, ?_, ?_, ?_⟩
      · rw [foldR_cons, hr.fill _ _ _ _ _ _ h1 h2 (by omega) (by omega), bind_ok, g1]
        simp only [List.filterMap_cons, hd, totalLen_cons, List.append_assoc, Nat.add_assoc]
      · simp; omega
      · intro m hm
        simp only [List.filterMap_cons, hd, totalLen_cons] at hm
        refine List.rel_append ?_ (g3 m (by omega))
        rw [List.forall₂_map_left_iff, List.forall₂_map_right_iff]
        exact hr.pairs.imp (fun s t h => h.shift (by omega))
      · intro pre post hpre
        simp only [List.filterMap_cons, hd, flat_cons]
        rw [List.zipWith_append (by simp; omega), hr.cv]
        congr 1
        · rw [List.zipWith_map]
          have hlv : lv c.params = lv p := by
            funext xs s t; simp only [lv, wrapList_key hk]
          rw [hlv]
          have := hr.pairs
          generalize starts = ss at this
          generalize stops = ts at this
          induction this with
          | nil => rfl
          | cons h _ ih =>
            simp only [List.zipWith_cons_cons, ih]
            congr 1
            exact lv_shift (pre := pre) (post := flat (hs.filterMap listContent) ++ post) (by simp)
              hpre (by simpa using h)
        · have := g4 (pre ++ d.cv) post (by simp; omega)
          simpa using this

theorem list_plain {c : Content} (h : c.isListNode = true) : c.Plain := by
  cases c <;> simp [isListNode] at h <;> simp [Plain, isIndirectNode, isOption, isUnion, isEmptyNode]

theorem ofType_list {b : Ty} (hb : ∀ k o t, b ≠ .opt k o t) {c : Content} (hl : c.isListNode = true)
    (h : OfType b c) : ∃ t, b = .list c.params.key t ∧ ∀ d ∈ c.children, OfType t d := by
  cases h with
  | list _ h => exact ⟨_, rfl, h⟩
  | opt h => rw [(list_plain hl).1] at h; simp at h
  | plain => exact absurd rfl (hb _ _ _)
  | _ => simp [isListNode] at hl

theorem ofType_of_list {k : ArrKind × Option String} {t : Ty} {c : Content} (h : OfType (.list k t) c)
    (hp : c.Plain) : c.isListNode = true ∧ ∀ d ∈ c.children, OfType t d := by
  cases h with
  | empty => simp [Plain, isEmptyNode] at hp
  | union => simp [Plain, isUnion] at hp
  | list h1 h2 => exact ⟨h1, h2⟩

theorem sizeAll_filterMap_listContent {cs : List Content} :
    sizeAll (cs.filterMap listContent) + (cs.filterMap listContent).length ≤ sizeAll cs := by
  induction cs with
  | nil => simp [sizeAll]
  | cons c cs ih =>
    cases c <;> simp only [listContent, sizeAll, size, List.filterMap_cons, List.length_cons] <;> omega

theorem mergeLists_ok {nu : Without} {n : Nat} {rec : Content → List Content → R Content}
    (hrec : RecOk nu n rec) {t : Ty} {p : Params} {self : Content} {hs : List Content}
    (hl : self.isListNode = true) (hp : self.params = p)
    (hi : Ins nu t (self :: hs)) (he : ∀ c ∈ hs, c.endsHead = false) (hn : mu (self :: hs) ≤ n) :
    (mergeLists rec p (self :: hs)).Tot nu.union (fun m => Out nu t (self :: hs) m ∧ m.Plain) := by
  subst hp
  obtain ⟨t', hb, _⟩ := ofType_list (Ty.base_ne_opt t) hl
    ((OfType.plain_iff (list_plain hl) t).mp hi.head.2).2
  have hall : ∀ c ∈ self :: hs, c.isEmptyNode = true ∨ (c.isListNode = true ∧
      ∀ d ∈ c.children, OfType t' d) := by
    intro c hc
    have hct := (hi c hc).2
    rcases List.mem_cons.mp hc with rfl | hc
    · right
      have := ((OfType.plain_iff (list_plain hl) t).mp hct).2
      rw [hb] at this
      exact ofType_of_list this (list_plain hl)
    · rcases plain_or (t := t) (he c hc) with h | h
      · exact .inl h
      · have h2 := ((OfType.plain_iff h t).mp hct).2
        rw [hb] at h2
        exact .inr (ofType_of_list h2 h)
  have hkey : ∀ c ∈ self :: hs, c.params.key = self.params.key := fun c hc => by
    rw [(hi c hc).2.key, hi.head.2.key]
  have hcont : Ins nu t' ((self :: hs).filterMap listContent) := by
    intro d hd
    obtain ⟨c, hc, hcd⟩ := List.mem_filterMap.mp hd
    have hmem : d ∈ c.children := by
      cases c <;> simp [listContent] at hcd <;> simp [children, hcd]
    rcases hall c hc with h | h
    · cases c <;> simp [isEmptyNode] at h; simp [listContent] at hcd
    · exact ⟨(hi c hc).1.child hmem, h.2 d hmem⟩
  obtain ⟨d0, hd0⟩ : ∃ d0, self.listContent = some d0 := by
    cases self <;> simp [isListNode] at hl <;> simp [listContent]
  have hsz := sizeAll_filterMap_listContent (cs := self :: hs)
  unfold mergeLists
  dsimp only
  rw [listContents_ok (fun c hc => (hall c hc).imp id (·.1)), bind_ok]
  have hfm : (self :: hs).filterMap listContent = d0 :: hs.filterMap listContent := by
    simp [hd0]
  obtain ⟨S, T, g1, g2, g3, g4⟩ := fold_lists (nu := nu) (p := self.params) (hs := self :: hs)
    (fun c hc => (hall c hc).imp id (fun h => ⟨h.1, (hi c hc).1, hkey c hc⟩))
    (done1 := []) (rest1 := alloc (totalLen (self :: hs))) (done2 := [])
    (rest2 := alloc (totalLen (self :: hs))) (base := 0) (n := 0) rfl rfl (alloc_length _)
    (alloc_length _)
  simp only [List.nil_append, Nat.zero_add] at g1 g3 g4
  rw [hfm] at hcont hsz g1 g3 g4 ⊢
  dsimp only
  refine (hrec t' d0 _ hcont ?_).bind (fun m hm => ?_)
  · refine Nat.lt_of_lt_of_le (mu_lt_size ?_) hn
    simp only [List.length_cons] at hsz
    omega
  · rw [g1, bind_ok]
    have hparams : ((self :: hs).foldl (fun q c => q.merge c.params) self.params).key = self.params.key :=
      Params.foldl_merge_key (fun c hc => hkey c hc)
    have hgood : (listArray ((self :: hs).foldl (fun q c => q.merge c.params) self.params) S T m).Good := by
      refine good_listArray.mpr ⟨by omega, hm.input.good, fun i hi => ?_⟩
      have := List.forall₂_iff_get.mp (g3 m.len (by rw [hm.len]))
      exact this.2 i hi (by omega)
    refine .ok ⟨⟨⟨hgood, .mk trivial ?_⟩, ?_, ?_, ?_⟩, by
      simp [Plain, isIndirectNode, isOption, isUnion, isEmptyNode]⟩
    · intro d hd
      simp only [children, List.mem_singleton] at hd
      subst hd; exact hm.input.nodes
    · refine hi.head.2.lift (list_plain hl) (list_plain rfl) hparams ?_
      rw [hb, ← hparams]
      refine .list (c := listArray _ S T m) rfl ?_
      intro d hd
      simp only [children, List.mem_singleton] at hd
      subst hd; exact hm.type
    · rw [cv_listArray hgood, hm.cv]
      have hlv : lv ((self :: hs).foldl (fun q c => q.merge c.params) self.params) = lv self.params := by
        funext xs s t; simp only [lv, wrapList_key hparams]
      rw [hlv]
      have := g4 [] [] rfl
      simpa using this
    · simp only [size]
      have := hm.size
      simp only [List.length_cons] at hsz
      omega

end Content
end Awk
