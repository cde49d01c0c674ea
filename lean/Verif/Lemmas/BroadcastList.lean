import Verif.Lemmas.Broadcast
/-
The steps for lists of `apply` of `broadcast_and_apply`.
-/

namespace Awk
open R

namespace Content

variable {reg : Bool} {W : Nat → Content → Prop} {b : Nat}
  {P Q : List Val → List Val → Prop} {k : Nat}

theorem getitemRange_zero (c : Content) (k : Int) :
    ∃ b : Nat, b ≤ c.len ∧ getitemRange c 0 k = c.range 0 (b : Int) ∧
      ∀ t : Nat, (t : Int) ≤ k → t ≤ c.len → t ≤ b := by
  have key : ∃ b : Nat, b ≤ c.len ∧
      regularize_rangeslice 0 k true ((0 : Int) != kSliceNone) (k != kSliceNone) c.len = (0, (b : Int)) ∧
      ∀ t : Nat, (t : Int) ≤ k → t ≤ c.len → t ≤ b := by
    have h0 : ((0 : Int) != kSliceNone) = true := by decide
    rw [h0]
    cases hk : (k != kSliceNone)
    · refine ⟨c.len, Nat.le_refl _, ?_, fun t _ h => h⟩
      have hn : ¬ ((c.len : Int) < 0) := by omega
      simp [regularize_rangeslice, hn]
    · by_cases h1 : k < 0
      · by_cases h2 : k + c.len < 0
        · refine ⟨0, by omega, ?_, by omega⟩
          simp [regularize_rangeslice, h1, h2]
        · refine ⟨(k + c.len).toNat, by omega, ?_, by omega⟩
          simp only [regularize_rangeslice, h1, h2, if_true, if_false, Bool.not_true,
            Bool.false_eq_true]
          rw [if_neg (by omega), if_neg (by omega), if_neg (by omega), if_neg (by omega)]
          simp; omega
      · by_cases h2 : k > c.len
        · refine ⟨c.len, Nat.le_refl _, ?_, fun t _ h => h⟩
          simp only [regularize_rangeslice, h1, h2, if_true, if_false, Bool.not_true,
            Bool.false_eq_true]
          have hn : ¬ ((c.len : Int) < 0) := by omega
          simp [hn]
        · refine ⟨k.toNat, by omega, ?_, by omega⟩
          simp only [regularize_rangeslice, h1, h2, if_true, if_false, Bool.not_true,
            Bool.false_eq_true]
          rw [if_neg (by omega), if_neg (by omega), if_neg (by omega)]
          simp; omega
  obtain ⟨b, h1, h2, h3⟩ := key
  refine ⟨b, h1, ?_, h3⟩
  unfold getitemRange
  rw [h2]

/-- A ListArray or ListOffsetArray. -/
theorem jagged_val (hW : Fam reg W) {c : Content} (h : Binput W (b + 1) c) (hj : c.isJagged = true) {i : Nat} (hi : i < c.len) :
    ∃ xs, c.valD i = .list xs := by
  cases c <;> simp only [isJagged, Bool.false_eq_true] at hj
  case listArray p starts stops c =>
    have hp := (hW.listArray _ _ _ _ _ h.nodes).1
    obtain ⟨hl, _, _⟩ := good_listArray.mp h.good
    simp only [Content.len] at hi
    exact ⟨_, by rw [valD_listArray h.good hi (by omega), wrapList, hp]⟩
  case listOffset p offsets c =>
    have hp := (hW.listOffset _ _ _ _ h.nodes).1
    simp only [Content.len] at hi
    exact ⟨_, by rw [valD_listOffset h.good (by omega), wrapList, hp]⟩

/-- Neither list, option type, indexed, union nor empty: numbers and records. -/
def isFlat : Content → Bool
  | numpy .. | record .. => true
  | _ => false

theorem flat_val {c : Content} (h : c.Good) (hf : c.isFlat = true) {i : Nat} (hi : i < c.len) :
    (∃ a, c.valD i = .atom a) ∨ (c.valD i).IsRecord := by
  cases c <;> simp only [isFlat, Bool.false_eq_true] at hf
  case numpy p dt data =>
    simp only [Content.len] at hi
    exact .inl ⟨_, valD_numpy hi⟩
  case record p keys cs length =>
    right
    simp only [Content.len] at hi
    rw [valD_record h hi]
    cases keys with
    | none => exact .inr ⟨_, rfl⟩
    | some ks => exact .inl ⟨_, rfl⟩

theorem flat_elem {c : Content} (h : c.Good) (hf : c.isFlat = true) {i : Nat} (hi : i < c.len) :
    (∀ k, (c.valD i).elem k = c.valD i) ∧ (∀ xs, c.valD i ≠ .list xs) ∧ c.valD i ≠ .null := by
  rcases flat_val h hf hi with ⟨a, h⟩ | ⟨fs, h⟩ | ⟨vs, h⟩ <;> rw [h] <;> simp [Val.elem]

theorem forN_body_ok {σ : Type} {n : Nat} {body : Nat → σ → R σ} {s s' : σ}
    (h : forN n body s = ok s') {i : Nat} (hi : i < n) : ∃ t t', body i t = ok t' := by
  induction n generalizing s' with
  | zero => omega
  | succ n ih =>
    rw [forN_succ, bind_eq_ok] at h
    obtain ⟨t, h1, h2⟩ := h
    by_cases he : i = n
    · subst he; exact ⟨t, s', h2⟩
    · exact ih h1 (by omega)

/-- When the kernel accepts the offsets, they are those of the lists. -/
theorem broadcast_tooffsets_counts {tocarry starts stops out : List Int} {L : Nat → Nat}
    {lencontent n : Nat} (hn : n ≤ starts.length) (hn' : n ≤ stops.length)
    (h : ListArray_broadcast_tooffsets tocarry (offsTo L n) (n + 1) starts stops lencontent = ok out)
    {i : Nat} (hi : i < n) : pairLen starts stops i = L i := by
  unfold ListArray_broadcast_tooffsets at h
  rw [show n + 1 - 1 = n by omega, bind_eq_ok] at h
  obtain ⟨st, h, _⟩ := h
  obtain ⟨t, t', h⟩ := forN_body_ok h hi
  rw [rd_nat_ok (by omega), bind_ok, rd_nat_ok (by omega), bind_ok] at h
  split at h
  · cases h
  · rw [rd_offsTo (by omega), bind_ok, rd_offsTo (by omega), bind_ok] at h
    dsimp only at h
    rw [sumTo_diff, if_neg (by omega)] at h
    split at h
    · cases h
    · rename_i he
      simp only [ne_eq, not_not] at he
      simp only [pairLen, List.getElem?_eq_getElem (show i < starts.length by omega),
        List.getElem?_eq_getElem (show i < stops.length by omega), Option.getD_some]
      omega

theorem listBroadcast_inv {starts stops : List Int} {c c' : Content} {L : Nat → Nat} {n : Nat}
    (hc : c.Good) (hn : n ≤ starts.length) (hn' : n ≤ stops.length)
    (hp : ∀ i (h : i < n), GoodPair starts[i] stops[i] c.len)
    (h : listBroadcast (offsTo L n) starts stops n c = ok c') :
    c'.Good ∧ c'.len = sumTo L n ∧ Gathered c' c ∧ ∀ i, i < n → pairLen starts stops i = L i ∧
      c'.seg (sumTo L i) (L i) = c.seg (starts[i]?.getD 0).toNat (L i) := by
  have hL : ∀ i, i < n → pairLen starts stops i = L i := by
    have h' := h
    unfold listBroadcast at h'
    rw [if_neg (by simp), rd_offsTo_zero, bind_ok, if_neg (by simp), if_neg (by simp),
      rd_offsTo_last, bind_ok, offsTo_length, bind_eq_ok] at h'
    obtain ⟨out, h', _⟩ := h'
    exact fun i hi => broadcast_tooffsets_counts hn hn' h' hi
  obtain ⟨d, h1, h2, _, h4, h5, h6⟩ := listBroadcast_ok hc hn hn' hp
  rw [offsTo_congr hL] at h1
  rw [h1] at h
  simp only [ok.injEq] at h; subst h
  refine ⟨h2, by rw [h4, sumTo_congr hL], h5, fun i hi => ⟨hL i hi, ?_⟩⟩
  have := h6 i hi
  rw [hL i hi, sumTo_congr (fun j hj => hL j (by omega))] at this
  exact this

theorem size1_ok (L : Nat → Nat) (n : Nat) :
    RegularArray_broadcast_tooffsets_size1 (alloc (sumTo L n : Int)) (offsTo L n) (n + 1)
      = ok (((List.range n).map (fun (i : Nat) => List.replicate (L i) (i : Int))).flatten) := by
  unfold RegularArray_broadcast_tooffsets_size1
  rw [show n + 1 - 1 = n by omega]
  rw [forN_append0 (fun (i : Nat) => List.replicate (L i) (i : Int)) ?_
    (by rw [alloc_length, flatten_map_length]; exact sumTo_congr (fun i _ => by simp)), bind_ok]
  intro i hi done rest hr
  rw [rd_offsTo (by omega), bind_ok, rd_offsTo (by omega), bind_ok]
  dsimp only
  rw [sumTo_diff, if_neg (by omega), forFrom_push (fun _ => (i : Int)) (fun j st => rfl)
    (by simpa using hr)]
  simp [List.map_const']

theorem regularBroadcast_one {c : Content} (hc : c.Good) (L : Nat → Nat) :
    ∃ c', regularBroadcast (offsTo L c.len) c.len 1 c = ok c' ∧ c'.Good ∧ Gathered c' c ∧
      c'.len = sumTo L c.len ∧
      ∀ i, i < c.len → ∀ k, k < L i → c'.valD (sumTo L i + k) = c.valD i := by
  have hin : InRange (((List.range c.len).map
      (fun (i : Nat) => List.replicate (L i) (i : Int))).flatten) c.len := by
    intro j hj
    simp only [List.mem_flatten, List.mem_map, List.mem_range, exists_exists_and_eq_and,
      List.mem_replicate] at hj
    obtain ⟨i, hi, _, rfl⟩ := hj
    omega
  have hfl : (((List.range c.len).map
      (fun (i : Nat) => List.replicate (L i) (i : Int))).flatten).length = sumTo L c.len := by
    rw [flatten_map_length]; exact sumTo_congr (fun i _ => by simp)
  obtain ⟨c', h1, h2, _, h4⟩ := carry_good hc true hin
  refine ⟨c', ?_, h2, .inr ⟨_, _, hin, h1⟩, by rw [h4.1, hfl], ?_⟩
  · unfold regularBroadcast
    rw [if_neg (by simp), rd_offsTo_zero, bind_ok, if_neg (by simp), if_neg (by simp),
      if_pos rfl, rd_offsTo_last, bind_ok, offsTo_length, size1_ok, bind_ok]
    exact h1
  · intro i hi k hk
    have hmono := sumTo_mono (f := L) (show i + 1 ≤ c.len by omega)
    rw [sumTo_succ] at hmono
    have hlt : sumTo L i + k < (((List.range c.len).map
      (fun (i : Nat) => List.replicate (L i) (i : Int))).flatten).length := by omega
    rw [h4.valD hlt]
    have hget := flatten_map_get (fun (i : Nat) => List.replicate (L i) (i : Int)) hi (k := k)
      (by simpa using hk)
    rw [sumTo_congr (g := L) (fun i _ => by simp), List.getElem?_eq_getElem hlt] at hget
    simp only [List.getElem?_replicate, hk, if_true, Option.some.injEq] at hget
    rw [hget]; simp

/-- The items of an input at the positions of the common offsets. -/
theorem toOffsets_ok (hW : Fam reg W) {c c' : Content} (h : Binput W (b + 1) c)
    (hk : c.isJagged = true ∨ c.isFlat = true)
    {L : Nat → Nat} (h1 : toOffsets (offsTo L c.len) c = ok c') :
    Binput W b c' ∧ c'.len = sumTo L c.len ∧ ∀ i, i < c.len →
      (∀ xs, c.valD i = .list xs → xs.length = L i) ∧
      ∀ k, k < L i → c'.valD (sumTo L i + k) = (c.valD i).elem k := by
  rcases hk with hj | hf
  · have hget : ∀ {d : Content} {s l m : Nat} {k : Nat}, k < l →
        c'.seg m l = d.seg s l → c'.valD (m + k) = (Val.list (d.seg s l)).elem k := by
      intro d s l m k hk he
      have := congrArg (fun l => l[k]?) he
      simp only [seg_getElem?, hk, if_true, Option.some.injEq] at this
      simp only [Val.elem, seg_getElem?, hk, if_true, Option.getD_some]
      exact this
    cases c <;> simp only [isJagged, Bool.false_eq_true] at hj
    case listArray p starts stops c =>
      obtain ⟨hp, hn⟩ := hW.listArray _ _ _ _ _ h.nodes
      obtain ⟨hl, hc, hpair⟩ := good_listArray.mp h.good
      simp only [toOffsets, Content.len] at h1 ⊢
      obtain ⟨e1, e2, e3, e4⟩ := listBroadcast_inv hc (Nat.le_refl _) hl hpair h1
      refine ⟨Binput.gathered hW ⟨hc, hn⟩ e1 e3, e2, fun i hi => ?_⟩
      obtain ⟨e5, e6⟩ := e4 i hi
      have hv : (listArray p starts stops c).valD i
          = .list (c.seg (starts[i]?.getD 0).toNat (L i)) := by
        rw [valD_listArray h.good hi (by omega), wrapList, hp, ← e5]
        simp [pairLen, hi, show i < stops.length by omega]
      rw [hv]
      exact ⟨fun xs hx => by cases hx; simp, fun k hk => hget hk e6⟩
    case listOffset p offsets c =>
      obtain ⟨hp, hn⟩ := hW.listOffset _ _ _ _ h.nodes
      obtain ⟨hl, hc, hpair⟩ := good_listOffset.mp h.good
      obtain ⟨m1, m2, m3⟩ := make_pairs hpair
      simp only [toOffsets, Content.len] at h1 ⊢
      obtain ⟨e1, e2, e3, e4⟩ := listBroadcast_inv hc (n := offsets.length - 1) (by omega) (by omega)
        (fun i hi => m3 i (by omega) (by omega)) h1
      refine ⟨Binput.gathered hW ⟨hc, hn⟩ e1 e3, e2, fun i hi => ?_⟩
      obtain ⟨e5, e6⟩ := e4 i hi
      have hv : (listOffset p offsets c).valD i
          = .list (c.seg ((makeStarts offsets)[i]?.getD 0).toNat (L i)) := by
        rw [valD_listOffset h.good (by omega), wrapList, hp, ← e5, pairLen_make (by omega),
          makeStarts_getElem? (by omega)]
        simp [pairLen, show i < offsets.length by omega, List.getElem?_drop,
          show 1 + i = i + 1 by omega, show i + 1 < offsets.length by omega]
      rw [hv]
      exact ⟨fun xs hx => by cases hx; simp, fun k hk => hget hk e6⟩
  · obtain ⟨d, e1, e2, e3, e4, e5⟩ := regularBroadcast_one h.good L
    have he : toOffsets (offsTo L c.len) c = regularBroadcast (offsTo L c.len) c.len 1 c := by
      cases c <;> first | rfl | cases hf
    rw [he, e1] at h1
    simp only [ok.injEq] at h1; subst h1
    refine ⟨Binput.gathered hW ⟨h.good, hW.mono _ _ h.nodes⟩ e2 e3, e4, fun i hi => ?_⟩
    obtain ⟨f1, f2, _⟩ := flat_elem h.good hf hi
    exact ⟨fun xs hx => absurd hx (f2 xs), fun k hk => by rw [e5 i hi k hk, f1]⟩

theorem compactOffsets_ok {c : Content} (h : Binput W b c) (hj : c.isJagged = true) :
    compactOffsets c = ok (offsTo c.lens c.len) := by
  cases c <;> simp only [isJagged, Bool.false_eq_true] at hj
  case listArray p starts stops c =>
    simp only [compactOffsets, Content.len]
    exact listArrayCompact_ok h.good
  case listOffset p offsets c =>
    obtain ⟨hl, hc, hpair⟩ := good_listOffset.mp h.good
    simp only [compactOffsets, Content.len]
    rw [listOffsetCompact_ok (n := offsets.length - 1) (by omega) (fun i hi => (hpair i hi).le)]
    exact congrArg ok (offsTo_congr (fun i hi => (lens_listOffset h.good (by omega)).symm))

/-- The step for lists with different offsets. -/
theorem jaggedStep_ok (hW : Fam reg W) {next : List Content → R (List Content)} {n : Nat}
    {cs outs : List Content}
    (hb : ∀ c ∈ cs, Binput W (b + 1) c) (hl : ∀ c ∈ cs, c.len = n)
    (hk : ∀ c ∈ cs, c.isJagged = true ∨ c.isFlat = true)
    (hnext : ∀ cs' outs', cs'.length = cs.length → (∀ c ∈ cs', Binput W b c) →
      next cs' = ok outs' → ∃ m, BOut P k m cs' outs')
    (hPQ : ListRule P Q cs.length k)
    (h : jaggedStep next cs = ok outs) : BOut Q k n cs outs := by
  unfold jaggedStep at h
  split at h
  · cases h
  · rename_i first hf
    have hj := List.find?_some hf
    have hm := List.mem_of_find?_eq_some hf
    simp only [bind_eq_ok, ok.injEq] at h
    obtain ⟨offsets, ho, cs', hcs', outs', hn, rfl⟩ := h
    rw [compactOffsets_ok (hb _ hm) hj, hl _ hm] at ho
    simp only [ok.injEq] at ho; subst ho
    generalize first.lens = L at hcs'
    rw [mapR_forall₂] at hcs'
    have hstep := fa2_imp_mem hcs' (S := fun c c' => Binput W b c' ∧ c'.len = sumTo L n ∧ ∀ i, i < n →
      (∀ xs, c.valD i = .list xs → xs.length = L i) ∧
      ∀ k, k < L i → c'.valD (sumTo L i + k) = (c.valD i).elem k) (fun c hc c' h1 => by
        have hlc := hl c hc
        have := toOffsets_ok hW (hb c hc) (hk c hc) (L := L) (by rw [hlc]; exact h1)
        rw [hlc] at this
        exact this)
    obtain ⟨m, hbo⟩ := hnext cs' outs' hstep.length_eq.symm (fun c hc => (forall₂_mem hstep hc).choose_spec.2.1) hn
    have hmm : m = sumTo L n := by
      obtain ⟨c', hc', h1⟩ := fa2_left hstep hm
      rw [← hbo.len c' hc']; exact h1.2.1
    subst hmm
    have hmono : ∀ i, i < n → sumTo L i + L i ≤ sumTo L n := by
      intro i hi
      have := sumTo_mono (f := L) (show i + 1 ≤ n by omega)
      rw [sumTo_succ] at this; exact this
    refine hbo.lists (sumTo L) L hPQ hl (fun i hi => .inr (hmono i hi)) ?_ ⟨first, hm, ?_⟩
      (hstep.imp (fun _ _ h => h.2.2)) ?_
    · intro c hc i hi
      rcases hk c hc with hj | hf
      · obtain ⟨xs, hx⟩ := jagged_val hW (hb c hc) hj (by rw [hl c hc]; exact hi)
        rw [hx]; simp
      · exact (flat_elem (hb c hc).good hf (by rw [hl c hc]; exact hi)).2.2
    · exact fun i hi => jagged_val hW (hb _ hm) hj (by rw [hl _ hm]; exact hi)
    · rw [List.forall₂_map_right_iff]
      refine List.forall₂_same.mpr (fun o ho => ?_)
      obtain ⟨hg, hlo⟩ := hbo.good o ho
      refine ⟨good_offsTo hg (by omega), by simp [Content.len], fun i hi => ?_⟩
      rw [valD_offsTo hg (by omega) hi]
      rfl

/-- The first position of list `i`. -/
def lo : Content → Nat → Int
  | listArray _ starts _ _, i => starts[i]?.getD 0
  | listOffset _ o _, i => o[i]?.getD 0
  | _, _ => 0

/-- The position after the last one of list `i`. -/
def hi : Content → Nat → Int
  | listArray _ _ stops _, i => stops[i]?.getD 0
  | listOffset _ o _, i => o[i + 1]?.getD 0
  | _, _ => 0

theorem mono_of_le {o : List Int} (h : ∀ i (hi : i + 1 < o.length), o[i] ≤ o[i + 1]) :
    ∀ i j (hj : j < o.length) (hij : i ≤ j), o[i] ≤ o[j] := by
  intro i j
  induction j with
  | zero => intro hj hij; have : i = 0 := by omega
            subst this; exact Int.le_refl _
  | succ j ih =>
    intro hj hij
    by_cases he : i = j + 1
    · subst he; exact Int.le_refl _
    · exact Int.le_trans (ih (by omega) (by omega)) (h j hj)

theorem foldl_max_ge (l : List Int) : ∀ a, a ≤ l.foldl max a ∧ ∀ x ∈ l, x ≤ l.foldl max a := by
  induction l with
  | nil => intro a; simp
  | cons y l ih =>
    intro a
    obtain ⟨h1, h2⟩ := ih (max a y)
    refine ⟨Int.le_trans (Int.le_max_left a y) h1, fun x hx => ?_⟩
    rcases List.mem_cons.mp hx with rfl | hx
    · exact Int.le_trans (Int.le_max_right a _) h1
    · exact h2 x hx

theorem range_piece (hW : Fam reg W) {d c' : Content} {k : Int} (hd : Binput W b d) (h : getitemRange d 0 k = ok c')
    {a b : Int} (hp : GoodPair a b d.len) (hb : b ≤ k) :
    GoodPair a b c'.len ∧ c'.seg a.toNat (b - a).toNat = d.seg a.toNat (b - a).toNat := by
  obtain ⟨m, h1, h2, h3⟩ := getitemRange_zero d k
  rw [h2] at h
  obtain ⟨_, hlen, e2⟩ := hd.range hW h1 h
  rcases hp with hp | ⟨p1, p2, p3⟩
  · refine ⟨.inl hp, ?_⟩
    rw [hp]; simp [seg]
  · have := h3 b.toNat (by omega) (by omega)
    refine ⟨.inr ⟨p1, p2, by omega⟩, ?_⟩
    refine List.ext_getElem (by simp) (fun k hk _ => ?_)
    simp only [seg_length] at hk
    rw [seg_getElem, seg_getElem, e2 _ (by omega)]

theorem sameNext_ok (hW : Fam reg W) {c c' : Content} (h : Binput W (b + 1) c)
    (hj : c.isJagged = true) (h1 : sameNext c = ok c') : Binput W b c' ∧ ∀ i, i < c.len → GoodPair (c.lo i) (c.hi i) c'.len ∧
      c.valD i = .list (c'.seg (c.lo i).toNat (c.hi i - c.lo i).toNat) := by
  cases c <;> simp only [isJagged, Bool.false_eq_true] at hj
  case listArray p starts stops d =>
    obtain ⟨hp, hn⟩ := hW.listArray _ _ _ _ _ h.nodes
    obtain ⟨hl, hc, hpair⟩ := good_listArray.mp h.good
    have hd : Binput W b d := ⟨hc, hn⟩
    simp only [sameNext] at h1
    have hcb : Binput W b c' := by
      split at h1 <;>
      · obtain ⟨m, h2, h3, _⟩ := getitemRange_zero d _
        rw [h3] at h1
        exact (hd.range hW h2 h1).1
    refine ⟨hcb, fun i hi => ?_⟩
    simp only [Content.len] at hi
    rw [if_neg (by omega)] at h1
    obtain ⟨e1, e2⟩ := range_piece hW hd h1 (hpair i hi)
      ((foldl_max_ge stops _).2 _ (List.getElem_mem (by omega)))
    simp only [lo, Content.hi, List.getElem?_eq_getElem hi,
      List.getElem?_eq_getElem (show i < stops.length by omega), Option.getD_some]
    refine ⟨e1, ?_⟩
    rw [valD_listArray h.good hi (by omega), wrapList, hp, e2]
  case listOffset p o d =>
    obtain ⟨hp, hn⟩ := hW.listOffset _ _ _ _ h.nodes
    obtain ⟨hl, hc, hpair⟩ := good_listOffset.mp h.good
    have hd : Binput W b d := ⟨hc, hn⟩
    simp only [sameNext] at h1
    rw [rd_nat_ok (by omega), bind_ok] at h1
    have hcb : Binput W b c' := by
      obtain ⟨m, h2, h3, _⟩ := getitemRange_zero d (o[o.length - 1])
      rw [h3] at h1
      exact (hd.range hW h2 h1).1
    refine ⟨hcb, fun i hi => ?_⟩
    simp only [Content.len] at hi
    obtain ⟨e1, e2⟩ := range_piece hW hd h1 (hpair i (by omega))
      (mono_of_le (fun i hi => (hpair i hi).le) (i + 1) (o.length - 1) (by omega) (by omega))
    simp only [lo, Content.hi, List.getElem?_eq_getElem (show i < o.length by omega),
      List.getElem?_eq_getElem (show i + 1 < o.length by omega), Option.getD_some]
    refine ⟨e1, ?_⟩
    rw [valD_listOffset h.good (by omega), wrapList, hp, e2]

/-- The positions are those of the offsets. -/
def FitsOffs (offs : List Int) (n : Nat) (c : Content) : Prop :=
  ∀ i, i < n → c.lo i = offs[i]?.getD 0 ∧ c.hi i = offs[i + 1]?.getD 0

theorem adjacent_len {p : Params} {starts stops : List Int} {d : Content} {n : Nat}
    (hg : (listArray p starts stops d).Good) (hl : (listArray p starts stops d).len = n) (hn : 0 < n)
    (ha : adjacent starts stops = true) : starts.length = n ∧ stops.length = n ∧
      ∀ i, i + 1 < n → stops[i]? = starts[i + 1]? := by
  obtain ⟨h1, _, _⟩ := good_listArray.mp hg
  simp only [Content.len] at hl
  simp only [adjacent, beq_iff_eq] at ha
  have := congrArg List.length ha
  simp at this
  refine ⟨hl, by omega, fun i hi => ?_⟩
  have := congrArg (fun l => l[i]?) ha
  simp only [List.getElem?_drop, List.getElem?_take] at this
  rw [if_pos (by omega), show 1 + i = i + 1 by omega] at this
  exact this.symm

theorem fits_of_some {n : Nat} : ∀ {cs : List Content} {offs : List Int},
    (∀ c ∈ cs, c.Good) → (∀ c ∈ cs, c.len = n) → (∀ c ∈ cs, c.isJagged = true) → 0 < n →
    allSameOffsets (some offs) cs = true → ∀ c ∈ cs, FitsOffs offs n c := by
  intro cs
  induction cs with
  | nil => simp
  | cons c cs ih =>
    intro offs hg hl hj hn h d hd
    have hj' := hj c (by simp)
    have hg' := hg c (by simp)
    have hl' := hl c (by simp)
    have ih' := ih (offs := offs) (fun c hc => hg c (by simp [hc])) (fun c hc => hl c (by simp [hc]))
      (fun c hc => hj c (by simp [hc])) hn
    cases c <;> simp only [isJagged, Bool.false_eq_true] at hj'
    case listOffset p o e =>
      simp only [allSameOffsets] at h
      split at h
      · cases h
      · rename_i he
        simp only [ne_eq, not_not] at he; subst he
        rcases List.mem_cons.mp hd with rfl | hd
        · exact fun i hi => ⟨rfl, rfl⟩
        · exact ih' h d hd
    case listArray p starts stops e =>
      simp only [allSameOffsets] at h
      split at h
      · cases h
      · rename_i ha
        simp only [Bool.not_eq_false] at ha
        split at h
        · cases h
        · rename_i he
          rcases List.mem_cons.mp hd with rfl | hd
          · obtain ⟨a1, a2, a3⟩ := adjacent_len hg' hl' hn ha
            simp only [ne_eq, not_or, not_not, not_and] at he
            obtain ⟨he1, he2⟩ := he
            have he2 := he2 (by omega)
            have hol := congrArg List.length he1
            simp at hol
            have hst : ∀ i, i < n → starts[i]? = offs[i]? := by
              intro i hi
              rw [← he1, List.getElem?_take, if_pos (by omega)]
            intro i hi
            simp only [lo, Content.hi]
            refine ⟨by rw [hst i hi], ?_⟩
            by_cases hi' : i + 1 < n
            · rw [a3 i hi', hst (i + 1) hi']
            · have : i = n - 1 := by omega
              subst this
              rw [a2, show offs.length - 1 = n by omega] at he2
              rw [show n - 1 + 1 = n by omega, he2]
          · exact ih' h d hd

theorem fits_of_none {n : Nat} {cs : List Content} (hg : ∀ c ∈ cs, c.Good) (hl : ∀ c ∈ cs, c.len = n)
    (hj : ∀ c ∈ cs, c.isJagged = true) (hn : 0 < n) (h : allSameOffsets none cs = true) :
    ∃ offs, ∀ c ∈ cs, FitsOffs offs n c := by
  cases cs with
  | nil => exact ⟨[], by simp⟩
  | cons c cs =>
    have hj' := hj c (by simp)
    have hg' := hg c (by simp)
    have hl' := hl c (by simp)
    have key : ∀ {offs : List Int}, FitsOffs offs n c → allSameOffsets (some offs) cs = true →
        ∃ offs, ∀ d ∈ c :: cs, FitsOffs offs n d := by
      intro offs hf ha
      refine ⟨offs, fun d hd => ?_⟩
      rcases List.mem_cons.mp hd with rfl | hd
      · exact hf
      · exact fits_of_some (fun c hc => hg c (by simp [hc])) (fun c hc => hl c (by simp [hc]))
          (fun c hc => hj c (by simp [hc])) hn ha d hd
    cases c <;> simp only [isJagged, Bool.false_eq_true] at hj'
    case listOffset p o e =>
      simp only [allSameOffsets] at h
      exact key (fun i hi => ⟨rfl, rfl⟩) h
    case listArray p starts stops e =>
      simp only [allSameOffsets] at h
      split at h
      · cases h
      · rename_i ha
        simp only [Bool.not_eq_false] at ha
        obtain ⟨a1, a2, a3⟩ := adjacent_len hg' hl' hn ha
        rw [if_neg (by omega)] at h
        refine key ?_ h
        intro i hi
        simp only [lo, Content.hi]
        rw [List.getElem?_append_left (by omega)]
        refine ⟨rfl, ?_⟩
        by_cases hi' : i + 1 < n
        · rw [a3 i hi', List.getElem?_append_left (by omega)]
        · have : i = n - 1 := by omega
          subst this
          rw [show n - 1 + 1 = n by omega, List.getElem?_append_right (by omega), a1, a2]
          simp

/-- The lists at the positions of `c`, with other content. -/
def relist : Content → Content → Content
  | listArray _ starts stops _, out => listArray {} starts stops out
  | listOffset _ o _, out => listOffset {} o out
  | _, out => out

theorem relist_ok {c out : Content} (hg : c.Good) (hj : c.isJagged = true) (ho : out.Good)
    (hp : ∀ i, i < c.len → GoodPair (c.lo i) (c.hi i) out.len) :
    (relist c out).Good ∧ (relist c out).len = c.len ∧ ∀ i, i < c.len →
      (relist c out).valD i = .list (out.seg (c.lo i).toNat (c.hi i - c.lo i).toNat) := by
  cases c <;> simp only [isJagged, Bool.false_eq_true] at hj
  case listArray p starts stops d =>
    obtain ⟨hl, hc, hpair⟩ := good_listArray.mp hg
    simp only [Content.len, lo, Content.hi] at hp
    have hg' : (listArray {} starts stops out).Good := by
      refine good_listArray.mpr ⟨hl, ho, fun i hi => ?_⟩
      have := hp i hi
      simpa [List.getElem?_eq_getElem hi, List.getElem?_eq_getElem (show i < stops.length by omega)]
        using this
    refine ⟨hg', rfl, fun i hi => ?_⟩
    simp only [Content.len] at hi
    simp only [relist]
    rw [valD_listArray hg' hi (by omega)]
    simp [lo, Content.hi, List.getElem?_eq_getElem hi,
      List.getElem?_eq_getElem (show i < stops.length by omega), wrapList]
  case listOffset p o d =>
    obtain ⟨hl, hc, hpair⟩ := good_listOffset.mp hg
    simp only [Content.len, lo, Content.hi] at hp
    have hg' : (listOffset {} o out).Good := by
      refine good_listOffset.mpr ⟨hl, ho, fun i hi => ?_⟩
      have := hp i (by omega)
      simpa [List.getElem?_eq_getElem (show i < o.length by omega), List.getElem?_eq_getElem hi]
        using this
    refine ⟨hg', rfl, fun i hi => ?_⟩
    simp only [Content.len] at hi
    simp only [relist]
    rw [valD_listOffset hg' (by omega)]
    simp [lo, Content.hi, List.getElem?_eq_getElem (show i < o.length by omega),
      List.getElem?_eq_getElem (show i + 1 < o.length by omega), wrapList]

theorem sameLists_ok {cs : List Content} {out out' : Content} (h : sameLists cs out = ok out') :
    ∃ c ∈ cs, c.isJagged = true ∧ out' = relist c out := by
  unfold sameLists at h
  split at h
  · rename_i p o d hf
    have := List.mem_of_find?_eq_some hf
    simp only [ok.injEq] at h
    exact ⟨listOffset p o d, by simpa using this, rfl, h.symm⟩
  · split at h
    · rename_i p starts stops d hf
      have := List.mem_of_find?_eq_some hf
      simp only [ok.injEq] at h
      exact ⟨listArray p starts stops d, by simpa using this, rfl, h.symm⟩
    · cases h

/-- The step for lists with the same offsets. -/
theorem sameStep_ok (hW : Fam reg W) {next : List Content → R (List Content)} {n : Nat}
    {cs outs : List Content} (hb : ∀ c ∈ cs, Binput W (b + 1) c) (hl : ∀ c ∈ cs, c.len = n) (hne : cs ≠ [])
    (hj : ∀ c ∈ cs, c.isJagged = true) (hs : allSameOffsets none cs = true)
    (hnext : ∀ cs' outs', cs'.length = cs.length → (∀ c ∈ cs', Binput W b c) →
      next cs' = ok outs' → ∃ m, BOut P k m cs' outs')
    (hPQ : ListRule P Q cs.length k)
    (h : sameStep next cs = ok outs) : BOut Q k n cs outs := by
  unfold sameStep at h
  simp only [bind_eq_ok] at h
  obtain ⟨cs', hcs', outs', hn, ho⟩ := h
  rw [mapR_forall₂] at hcs' ho
  have hstep := fa2_imp_mem hcs' (S := fun c c' => Binput W b c' ∧ ∀ i, i < n →
    GoodPair (c.lo i) (c.hi i) c'.len ∧
      c.valD i = .list (c'.seg (c.lo i).toNat (c.hi i - c.lo i).toNat)) (fun c hc c' h1 => by
        have := sameNext_ok hW (hb c hc) (hj c hc) h1
        rw [hl c hc] at this
        exact this)
  obtain ⟨m, hbo⟩ := hnext cs' outs' hstep.length_eq.symm (fun c hc => (forall₂_mem hstep hc).choose_spec.2.1) hn
  obtain ⟨offs, hf⟩ : ∃ offs, ∀ c ∈ cs, FitsOffs offs n c := by
    by_cases hn0 : 0 < n
    · exact fits_of_none (fun c hc => (hb c hc).good) hl hj hn0 hs
    · exact ⟨[], fun c _ i hi => by omega⟩
  have hpair : ∀ i, i < n → GoodPair (offs[i]?.getD 0) (offs[i + 1]?.getD 0) m := by
    intro i hi
    obtain ⟨c, hc⟩ := List.exists_mem_of_ne_nil cs hne
    obtain ⟨c', hc', h1⟩ := fa2_left hstep hc
    have := (h1.2 i hi).1
    rw [(hf c hc i hi).1, (hf c hc i hi).2, hbo.len c' hc'] at this
    exact this
  have hlist : ∀ c ∈ cs, ∀ i, i < n → ∃ xs, c.valD i = .list xs :=
    fun c hc i hi => jagged_val hW (hb c hc) (hj c hc) (by rw [hl c hc]; exact hi)
  refine hbo.lists (fun i => (offs[i]?.getD 0).toNat)
    (fun i => (offs[i + 1]?.getD 0 - offs[i]?.getD 0).toNat) hPQ hl ?_ ?_ ?_ ?_ ?_
  · intro i hi
    rcases hpair i hi with h | ⟨h1, h2, h3⟩
    · left; omega
    · right; omega
  · intro c hc i hi
    obtain ⟨xs, hx⟩ := hlist c hc i hi
    rw [hx]; simp
  · obtain ⟨c, hc⟩ := List.exists_mem_of_ne_nil cs hne
    exact ⟨c, hc, hlist c hc⟩
  · refine fa2_imp_mem hstep (fun c hc c' h1 i hi => ?_)
    have hv := (h1.2 i hi).2
    rw [(hf c hc i hi).1, (hf c hc i hi).2] at hv
    rw [hv]
    refine ⟨fun xs hx => by cases hx; simp, fun k hk => ?_⟩
    simp only [Val.elem, seg_getElem?, hk, if_true, Option.getD_some]
  · refine fa2_imp_mem ho (fun o' ho' o h1 => ?_)
    obtain ⟨c, hc, hjc, rfl⟩ := sameLists_ok h1
    obtain ⟨hg', hl'⟩ := hbo.good o' ho'
    obtain ⟨r1, r2, r3⟩ := relist_ok (hb c hc).good hjc hg' (fun i hi => by
      rw [hl c hc] at hi
      rw [(hf c hc i hi).1, (hf c hc i hi).2, hl']; exact hpair i hi)
    rw [hl c hc] at r2 r3
    refine ⟨r1, r2, fun i hi => ?_⟩
    rw [r3 i hi, (hf c hc i hi).1, (hf c hc i hi).2]

end Content
end Awk
