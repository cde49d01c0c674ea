import Verif.Lemmas.Loops
import Verif.Lemmas.ValD
import Verif.Spec.List
/-
The list classes: compact offsets and `toListOffsetArray64`.
-/

namespace Awk
open R

@[simp] theorem items_wrapList (p : Params) (vs : List Val) : (wrapList p vs).items = vs := by
  unfold wrapList
  cases p.arr <;> rfl

@[simp] theorem isList_wrapList (p : Params) (vs : List Val) : (wrapList p vs).isList = true := by
  unfold wrapList
  cases p.arr <;> rfl

theorem withItems_wrapList (p : Params) (vs ws : List Val) :
    (wrapList p vs).withItems ws = wrapList p ws := by
  unfold wrapList
  cases p.arr <;> rfl

/-- The length of the pair `(starts[i], stops[i])`. -/
def pairLen (starts stops : List Int) (i : Nat) : Nat :=
  ((stops[i]?.getD 0) - (starts[i]?.getD 0)).toNat

/-- Running totals of `f`, as an offsets buffer. -/
def offsTo (f : Nat → Nat) (n : Nat) : List Int := (List.range (n + 1)).map (fun i => (sumTo f i : Int))

@[simp] theorem offsTo_length (f : Nat → Nat) (n : Nat) : (offsTo f n).length = n + 1 := by
  simp [offsTo]

theorem offsTo_getElem {f : Nat → Nat} {n i : Nat} (h : i < (offsTo f n).length) :
    (offsTo f n)[i] = (sumTo f i : Int) := by simp [offsTo]

theorem rd_offsTo {f : Nat → Nat} {n i : Nat} (h : i ≤ n) :
    rd (offsTo f n) (i : Int) = ok (sumTo f i : Int) := by
  rw [rd_nat_ok (by simp; omega), offsTo_getElem]

theorem rd_offsTo_zero {f : Nat → Nat} {n : Nat} : rd (offsTo f n) 0 = ok 0 := by
  have := rd_offsTo (f := f) (n := n) (i := 0) (by omega)
  simpa using this

theorem rd_offsTo_last {f : Nat → Nat} {n : Nat} :
    rd (offsTo f n) (((offsTo f n).length - 1 : Nat) : Int) = ok (sumTo f n : Int) := by
  rw [show (offsTo f n).length - 1 = n by simp]
  exact rd_offsTo (Nat.le_refl _)

theorem sumTo_diff (f : Nat → Nat) (i : Nat) :
    (sumTo f (i + 1) : Int) - (sumTo f i : Int) = (f i : Int) := by rw [sumTo_succ]; omega

theorem offsTo_congr {f g : Nat → Nat} {n : Nat} (h : ∀ i, i < n → f i = g i) :
    offsTo f n = offsTo g n := by
  unfold offsTo
  apply List.map_congr_left
  intro i hi
  simp only [List.mem_range] at hi
  rw [sumTo_congr (fun j hj => h j (by omega))]

/-- `tooffsets[0] = 0; for i: tooffsets[i + 1] = …` filling running totals. -/
theorem wr_running {n : Nat} {body : Nat → List Int → R (List Int)} {f : Nat → Nat}
    {out : List Int} (hlen : out.length = n + 1)
    (hb : ∀ i, i < n → ∀ o : List Int, o.length = n + 1 → o[i]? = some (sumTo f i : Int) →
      body i o = ok (o.set (i + 1) (sumTo f (i + 1) : Int))) :
    (wr out 0 0 >>= fun out => forN n body out) = ok (offsTo f n) := by
  rw [wr_ok (by omega) (by omega), bind_ok]
  exact forN_running (fun i => (sumTo f i : Int)) (by simpa using hlen)
    (by rw [List.getElem?_set]; simp [hlen]) hb

theorem ListArray_compact_offsets_ok {starts stops : List Int} (hl : starts.length ≤ stops.length)
    (hp : ∀ i (h : i < starts.length), starts[i] ≤ stops[i]) :
    ListArray_compact_offsets (alloc ((starts.length : Int) + 1)) starts stops starts.length
      = ok (offsTo (pairLen starts stops) starts.length) := by
  unfold ListArray_compact_offsets
  refine wr_running (alloc_length (_ + 1)) ?_
  intro i hi o ho h1
  have := hp i hi
  rw [rd_nat_ok hi, bind_ok, rd_nat_ok (by omega), bind_ok, if_neg (by omega),
    rd_eq_ok.mpr ⟨by omega, by simpa using h1⟩, bind_ok, wr_nat_ok (by omega)]
  congr 2
  simp only [sumTo_succ, pairLen, List.getElem?_eq_getElem hi,
    List.getElem?_eq_getElem (show i < stops.length by omega), Option.getD_some]
  omega

theorem ListOffsetArray_compact_offsets_ok {offsets : List Int} {n : Nat}
    (hl : offsets.length = n + 1)
    (hp : ∀ i (h : i + 1 < offsets.length), offsets[i] ≤ offsets[i + 1]) :
    ListOffsetArray_compact_offsets (alloc (offsets.length : Int)) offsets n
      = ok (offsTo (pairLen offsets (offsets.drop 1)) n) := by
  have hsum : ∀ i (h : i < offsets.length),
      (sumTo (pairLen offsets (offsets.drop 1)) i : Int) = offsets[i] - offsets[0] := by
    intro i
    induction i with
    | zero => intro h; simp
    | succ i ih =>
      intro h
      have h1 := ih (by omega)
      have h2 := hp i h
      rw [sumTo_succ]
      have h3 : pairLen offsets (offsets.drop 1) i = (offsets[i + 1] - offsets[i]).toNat := by
        unfold pairLen
        rw [List.getElem?_drop, show 1 + i = i + 1 by omega, List.getElem?_eq_getElem h,
          List.getElem?_eq_getElem (show i < offsets.length by omega)]
        rfl
      rw [h3]; push_cast; omega
  unfold ListOffsetArray_compact_offsets
  rw [rd_ok (by omega) (by omega), bind_ok]
  refine wr_running (by rw [alloc_length]; omega) ?_
  intro i hi o ho h1
  rw [rd_nat_ok (by omega), bind_ok, wr_nat_ok (by omega), hsum (i + 1) (by omega)]
  rfl

theorem sumTo_const (size n : Nat) : sumTo (fun _ => size) n = n * size := by
  induction n with
  | zero => simp
  | succ n ih => rw [sumTo_succ, ih, Nat.add_mul]; omega

theorem RegularArray_compact_offsets_ok (n size : Nat) :
    RegularArray_compact_offsets (alloc ((n : Int) + 1)) n size
      = ok (offsTo (fun _ => size) n) := by
  unfold RegularArray_compact_offsets
  refine wr_running (alloc_length (_ + 1)) ?_
  intro i hi o ho h1
  rw [wr_nat_ok (by omega), sumTo_const]

/-- The positions of one list. -/
def pairPos (starts stops : List Int) (i : Nat) : List Int :=
  (List.range (pairLen starts stops i)).map (fun (k : Nat) => starts[i]?.getD 0 + (k : Int))

@[simp] theorem pairPos_length (starts stops : List Int) (i : Nat) :
    (pairPos starts stops i).length = pairLen starts stops i := by simp [pairPos]

theorem ListArray_broadcast_tooffsets_ok {starts stops : List Int} {lencontent n : Nat}
    (hn : n ≤ starts.length) (hn' : n ≤ stops.length)
    (hp : ∀ i (h : i < n), GoodPair starts[i] stops[i] lencontent) :
    ListArray_broadcast_tooffsets
      (alloc (sumTo (pairLen starts stops) n : Int)) (offsTo (pairLen starts stops) n) (n + 1)
      starts stops lencontent
      = ok (((List.range n).map (pairPos starts stops)).flatten) := by
  unfold ListArray_broadcast_tooffsets
  rw [show n + 1 - 1 = n by omega]
  rw [forN_append0 (pairPos starts stops) ?_
    (by rw [alloc_length, flatten_map_length]; exact sumTo_congr (fun i _ => by simp)), bind_ok]
  intro i hi done rest hr
  have hg := hp i hi
  rw [rd_nat_ok (by omega), bind_ok, rd_nat_ok (by omega), bind_ok,
    if_neg (by rcases hg with h | h <;> omega), rd_offsTo (by omega), bind_ok,
    rd_offsTo (by omega), bind_ok]
  have hlen : pairLen starts stops i = (stops[i] - starts[i]).toNat := by
    simp [pairLen, List.getElem?_eq_getElem (show i < starts.length by omega),
      List.getElem?_eq_getElem (show i < stops.length by omega)]
  have hle := hg.le
  dsimp only
  rw [sumTo_diff, if_neg (by omega), if_neg (by omega)]
  rw [forFrom_push (fun j => j) (fun j st => rfl) (by simpa [hlen] using hr)]
  simp only [pairPos, hlen, List.getElem?_eq_getElem (show i < starts.length by omega),
    Option.getD_some, List.length_map, List.length_range]

theorem pairPos_inRange {starts stops : List Int} {lencontent n : Nat} (hn : n ≤ starts.length)
    (hn' : n ≤ stops.length)
    (hp : ∀ i (h : i < n), GoodPair starts[i] stops[i] lencontent) :
    InRange (((List.range n).map (pairPos starts stops)).flatten) lencontent := by
  intro j hj
  simp only [List.mem_flatten, List.mem_map, List.mem_range, exists_exists_and_eq_and, pairPos] at hj
  obtain ⟨i, hi, k, hk, rfl⟩ := hj
  have hg := hp i hi
  simp only [pairLen, List.getElem?_eq_getElem (show i < starts.length by omega),
    List.getElem?_eq_getElem (show i < stops.length by omega), Option.getD_some] at hk ⊢
  rcases hg with h | h <;> omega

namespace Content

/-- The number of items of element `i`. -/
def lens (c : Content) (i : Nat) : Nat := (c.valD i).items.length

/-- `c'` is `c` or is gathered from it. -/
def Gathered (c' c : Content) : Prop :=
  c' = c ∨ ∃ lazy idx, InRange idx c.len ∧ c.carry lazy idx = ok c'

/-- What `toListOffsetArray64(true)` must produce: the running totals of the lengths, and a
content whose consecutive segments are the lists. -/
structure Parts (c : Content) (offs : List Int) (c' : Content) : Prop where
  good : c'.Good
  offs_eq : offs = offsTo c.lens c.len
  bound : sumTo c.lens c.len ≤ c'.len
  vals : ∀ i, i < c.len → c.valD i = wrapList c.params (c'.seg (sumTo c.lens i) (c.lens i))
  src : ∃ d ∈ c.children, Gathered c' d

theorem listBroadcast_ok {starts stops : List Int} {c : Content} {n : Nat} (hc : c.Good)
    (hn : n ≤ starts.length) (hn' : n ≤ stops.length)
    (hp : ∀ i (h : i < n), GoodPair starts[i] stops[i] c.len) :
    ∃ c', listBroadcast (offsTo (pairLen starts stops) n) starts stops n c = ok c' ∧ c'.Good ∧
      c'.rank ≤ c.rank + 1 ∧ c'.len = sumTo (pairLen starts stops) n ∧ Gathered c' c ∧
      ∀ i, i < n → c'.seg (sumTo (pairLen starts stops) i) (pairLen starts stops i)
        = c.seg (starts[i]?.getD 0).toNat (pairLen starts stops i) := by
  obtain ⟨c', h1, h2, h3, h4⟩ := carry_good hc true (pairPos_inRange hn hn' hp)
  have hflen : (((List.range n).map (pairPos starts stops)).flatten).length
      = sumTo (pairLen starts stops) n := by
    rw [flatten_map_length]; exact sumTo_congr (fun i _ => by simp)
  refine ⟨c', ?_, h2, h3, by rw [h4.1, hflen], .inr ⟨_, _, pairPos_inRange hn hn' hp, h1⟩, ?_⟩
  · unfold listBroadcast
    rw [if_neg (by simp), rd_offsTo_zero, bind_ok, if_neg (by simp), if_neg (by simp),
      rd_offsTo_last, bind_ok, offsTo_length, ListArray_broadcast_tooffsets_ok hn hn' hp, bind_ok]
    exact h1
  · intro i hi
    apply List.map_congr_left
    intro k hk
    simp only [List.mem_range] at hk
    have hg := hp i hi
    have hmono := sumTo_mono (f := pairLen starts stops) (show i + 1 ≤ n by omega)
    rw [sumTo_succ] at hmono
    have hlt : sumTo (pairLen starts stops) i + k
        < (((List.range n).map (pairPos starts stops)).flatten).length := by omega
    rw [h4.valD hlt]
    have hget := flatten_map_get (pairPos starts stops) hi (k := k) (by simpa using hk)
    rw [sumTo_congr (g := pairLen starts stops) (fun i _ => by simp),
      List.getElem?_eq_getElem hlt] at hget
    simp only [pairPos, List.getElem?_map, List.getElem?_range hk, Option.map_some,
      Option.some.injEq] at hget
    rw [hget]
    simp only [pairLen, List.getElem?_eq_getElem (show i < starts.length by omega),
      List.getElem?_eq_getElem (show i < stops.length by omega), Option.getD_some] at hk ⊢
    congr 1
    rcases hg with h | h <;> omega

theorem lens_eq {c : Content} {p : Params} {vs : List Val} {i : Nat}
    (h : c.valD i = wrapList p vs) : c.lens i = vs.length := by simp [lens, h]

theorem lens_listArray {p : Params} {starts stops : List Int} {c : Content}
    (h : (listArray p starts stops c).Good) {i : Nat} (hi : i < starts.length) :
    (listArray p starts stops c).lens i = pairLen starts stops i := by
  obtain ⟨hl, _, _⟩ := good_listArray.mp h
  rw [lens_eq (valD_listArray h hi (by omega)), seg_length]
  simp [pairLen, hi, show i < stops.length by omega]

theorem lens_listOffset {p : Params} {offsets : List Int} {c : Content}
    (h : (listOffset p offsets c).Good) {i : Nat} (hi : i + 1 < offsets.length) :
    (listOffset p offsets c).lens i = pairLen offsets (offsets.drop 1) i := by
  rw [lens_eq (valD_listOffset h hi), seg_length]
  simp [pairLen, List.getElem?_drop, show 1 + i = i + 1 by omega, hi,
    show i < offsets.length by omega]

theorem lens_regular {p : Params} {c : Content} {size zeros i : Nat} (hc : c.Good)
    (hi : i < (regular p c size zeros).len) : (regular p c size zeros).lens i = size := by
  rw [lens_eq (valD_regular hc hi), seg_length]

theorem makeStarts_getElem? {offsets : List Int} {i : Nat} (h : i + 1 < offsets.length) :
    (makeStarts offsets)[i]? = offsets[i]? := by
  simp [makeStarts, List.getElem?_take, show i < offsets.length - 1 by omega]

theorem pairLen_make {offsets : List Int} {i : Nat} (h : i + 1 < offsets.length) :
    pairLen (makeStarts offsets) (makeStops offsets) i = pairLen offsets (offsets.drop 1) i := by
  unfold pairLen
  rw [makeStarts_getElem? h]; rfl

theorem make_pairs {offsets : List Int} {n : Nat}
    (hp : ∀ i (h : i + 1 < offsets.length), GoodPair offsets[i] offsets[i + 1] n) :
    (makeStarts offsets).length = offsets.length - 1 ∧
    (makeStops offsets).length = offsets.length - 1 ∧
    ∀ i (h : i < (makeStarts offsets).length) (h' : i < (makeStops offsets).length),
      GoodPair (makeStarts offsets)[i] (makeStops offsets)[i] n := by
  refine ⟨by simp [makeStarts], by simp [makeStops], ?_⟩
  intro i h h'
  have hi : i + 1 < offsets.length := by simp [makeStarts] at h; omega
  have := hp i hi
  simp only [makeStarts, makeStops, List.getElem_take, List.getElem_drop,
    show 1 + i = i + 1 by omega]
  exact this

/-- Offsets that start at zero are the running totals. -/
theorem offs_zero {offsets : List Int} {n : Nat} (hl : offsets.length = n + 1)
    (hp : ∀ i (h : i + 1 < offsets.length), offsets[i] ≤ offsets[i + 1]) (h0 : offsets[0] = 0) :
    offsets = offsTo (pairLen offsets (offsets.drop 1)) n := by
  have hsum : ∀ i (h : i < offsets.length),
      (sumTo (pairLen offsets (offsets.drop 1)) i : Int) = offsets[i] := by
    intro i
    induction i with
    | zero => intro h; simp [h0]
    | succ i ih =>
      intro h
      have h1 := ih (by omega)
      have h2 := hp i h
      rw [sumTo_succ]
      have h3 : pairLen offsets (offsets.drop 1) i = (offsets[i + 1] - offsets[i]).toNat := by
        unfold pairLen
        rw [List.getElem?_drop, show 1 + i = i + 1 by omega, List.getElem?_eq_getElem h,
          List.getElem?_eq_getElem (show i < offsets.length by omega)]
        rfl
      rw [h3]; push_cast; omega
  apply List.ext_getElem (by simp [hl])
  intro i h1 h2
  rw [offsTo_getElem, hsum i h1]

/-- With good pairs and a first offset of zero, no offset is past the end of the content. -/
theorem offs_bound {offsets : List Int} {n : Nat}
    (hp : ∀ i (h : i + 1 < offsets.length), GoodPair offsets[i] offsets[i + 1] n)
    (hl : 0 < offsets.length) (h0 : offsets[0] = 0) {i : Nat} (h : i < offsets.length) :
    0 ≤ offsets[i] ∧ offsets[i] ≤ n := by
  induction i with
  | zero => omega
  | succ i ih =>
    have := ih (by omega)
    rcases hp i h with h1 | h1 <;> omega

theorem listOffsetCompact_ok {offsets : List Int} {n : Nat} (hl : offsets.length = n + 1)
    (hp : ∀ i (h : i + 1 < offsets.length), offsets[i] ≤ offsets[i + 1]) :
    listOffsetCompact offsets = ok (offsTo (pairLen offsets (offsets.drop 1)) n) := by
  unfold listOffsetCompact
  rw [rd_ok (by omega) (by omega), bind_ok]
  split
  · rename_i h
    exact congrArg ok (offs_zero hl hp (by simpa using h))
  · rw [show offsets.length - 1 = n by omega]
    exact ListOffsetArray_compact_offsets_ok hl hp

theorem listArrayCompact_ok {p : Params} {starts stops : List Int} {c : Content}
    (h : (listArray p starts stops c).Good) :
    listArrayCompact starts stops
      = ok (offsTo (listArray p starts stops c).lens starts.length) := by
  obtain ⟨hl, _, hp⟩ := good_listArray.mp h
  unfold listArrayCompact
  rw [ListArray_compact_offsets_ok hl (fun i hi => (hp i hi).le)]
  exact congrArg ok (offsTo_congr (fun i hi => (lens_listArray h hi).symm))

theorem broadcast_size1_ok (n : Nat) :
    RegularArray_broadcast_tooffsets_size1 (alloc (sumTo (fun _ => 1) n : Int))
      (offsTo (fun _ => 1) n) (n + 1) = ok ((List.range n).map (fun (i : Nat) => (i : Int))) := by
  have hfl : ((List.range n).map (fun (i : Nat) => [(i : Int)])).flatten
      = (List.range n).map (fun (i : Nat) => (i : Int)) := by
    generalize n = m
    induction m with
    | zero => rfl
    | succ m ih => simp [List.range_succ, ih]
  rw [← hfl]
  unfold RegularArray_broadcast_tooffsets_size1
  rw [show n + 1 - 1 = n by omega]
  rw [forN_append0 (fun (i : Nat) => [(i : Int)]) ?_
    (by rw [alloc_length, flatten_map_length]; rfl), bind_ok]
  intro i hi done rest hr
  rw [rd_offsTo (by omega), bind_ok, rd_offsTo (by omega), bind_ok]
  dsimp only
  rw [sumTo_diff, if_neg (by omega), forFrom_push (fun _ => (i : Int)) (fun j st => rfl)
    (by simpa using hr)]
  simp

/-- `toListOffsetArray64(true)` of a list node. -/
theorem listParts_ok {c : Content} (h : c.Good) (hl : c.isListNode = true) :
    ∃ offs c', c.listParts = ok (offs, c') ∧ Parts c offs c' ∧ c'.rank + 1 ≤ c.rank := by
  cases c <;> simp only [isListNode, Bool.false_eq_true] at hl
  case regular p c size zeros =>
    have hc := good_regular.mp h
    have hlens : ∀ i, i < (regular p c size zeros).len → (regular p c size zeros).lens i = size :=
      fun i hi => lens_regular hc hi
    generalize hn : (regular p c size zeros).len = n at hlens
    have hb : n * size ≤ c.len := by
      cases n with
      | zero => simp
      | succ n =>
        have := regular_bound (p := p) (c := c) (size := size) (zeros := zeros) (i := n) (by omega)
        rw [Nat.add_mul]; omega
    have hsum : ∀ i, i ≤ n → sumTo (regular p c size zeros).lens i = i * size := by
      intro i hi
      rw [sumTo_congr (g := fun _ => size) (fun j hj => hlens j (by omega)), sumTo_const]
    have hoffs : offsTo (fun _ => size) n = offsTo (regular p c size zeros).lens n :=
      offsTo_congr (fun i hi => (hlens i hi).symm)
    simp only [listParts, hn, regularCompact]
    rw [RegularArray_compact_offsets_ok, bind_ok]
    unfold regularBroadcast
    rw [if_neg (by simp), rd_offsTo_zero, bind_ok, if_neg (by simp), if_neg (by simp)]
    by_cases h1 : size = 1
    · subst h1
      rw [if_pos rfl, rd_offsTo_last, bind_ok, offsTo_length]
      rw [broadcast_size1_ok, bind_ok]
      have hin : InRange ((List.range n).map (fun (i : Nat) => (i : Int))) c.len := by
        intro j hj
        simp only [List.mem_map, List.mem_range] at hj
        obtain ⟨i, hi, rfl⟩ := hj
        omega
      obtain ⟨c', e1, e2, e3, e4⟩ := carry_good hc true hin
      have hlen : c'.len = n := by rw [e4.1]; simp
      refine ⟨_, c', by rw [e1]; rfl, ⟨e2, by rw [hn]; exact hoffs, ?_, ?_,
        ⟨c, by simp [children], .inr ⟨_, _, hin, e1⟩⟩⟩, ?_⟩
      · rw [hn, hsum n (Nat.le_refl _), hlen]; omega
      · intro i hi
        rw [valD_regular hc hi, hlens i (by omega), hsum i (by omega)]
        simp only [params, seg]
        congr 1
        apply List.map_congr_left
        intro k hk
        simp only [List.mem_range] at hk
        have : k = 0 := by omega
        subst this
        rw [e4.valD (i := i * 1 + 0) (by simp; omega)]
        simp
      · simp only [rank]
        simp only [Bool.toNat_true] at e3; omega
    · rw [if_neg h1]
      have hk : RegularArray_broadcast_tooffsets (offsTo (fun _ => size) n)
          (offsTo (fun _ => size) n).length size = ok () := by
        unfold RegularArray_broadcast_tooffsets
        rw [show (offsTo (fun _ => size) n).length - 1 = n by simp, forN_unit]
        intro i hi
        rw [rd_offsTo (by omega), bind_ok, rd_offsTo (by omega), bind_ok]
        dsimp only
        rw [sumTo_diff, if_neg (by omega), if_neg (by omega)]
      rw [hk, bind_ok, bind_ok]
      refine ⟨_, c, rfl, ⟨hc, by rw [hn]; exact hoffs, ?_, ?_, ⟨c, by simp [children], .inl rfl⟩⟩, ?_⟩
      · rw [hn, hsum n (Nat.le_refl _)]; exact hb
      · intro i hi
        rw [valD_regular hc hi, hlens i (by omega), hsum i (by omega)]
        rfl
      · simp only [rank]; omega
  case listArray p starts stops c =>
    obtain ⟨hlen, hc, hp⟩ := good_listArray.mp h
    have hoffs : offsTo (pairLen starts stops) starts.length
        = offsTo (listArray p starts stops c).lens starts.length :=
      offsTo_congr (fun i hi => (lens_listArray h hi).symm)
    obtain ⟨c', e1, e2, e3, e4, e6, e5⟩ := listBroadcast_ok hc (Nat.le_refl _) hlen hp
    have hsum : ∀ i, i ≤ starts.length → sumTo (listArray p starts stops c).lens i
        = sumTo (pairLen starts stops) i :=
      fun i hi => sumTo_congr (fun j hj => lens_listArray h (by omega))
    simp only [listParts]
    rw [listArrayCompact_ok h, bind_ok, ← hoffs, e1, bind_ok]
    refine ⟨_, c', rfl, ⟨e2, hoffs, ?_, ?_, ⟨c, by simp [children], e6⟩⟩, ?_⟩
    · simp only [len]; rw [hsum _ (Nat.le_refl _)]; omega
    · intro i hi
      simp only [len] at hi
      rw [valD_listArray h hi (by omega), lens_listArray h hi, hsum i (by omega), e5 i hi]
      simp only [params, pairLen, List.getElem?_eq_getElem hi,
        List.getElem?_eq_getElem (show i < stops.length by omega), Option.getD_some]
    · simp only [rank]; omega
  case listOffset p offsets c =>
    obtain ⟨hlen, hc, hp⟩ := good_listOffset.mp h
    obtain ⟨n, hn⟩ : ∃ n, offsets.length = n + 1 := ⟨offsets.length - 1, by omega⟩
    have hle : ∀ i (h : i + 1 < offsets.length), offsets[i] ≤ offsets[i + 1] :=
      fun i hi => (hp i hi).le
    have hclen : (listOffset p offsets c).len = n := by simp only [len]; omega
    have hlens : ∀ i, i < n →
        (listOffset p offsets c).lens i = pairLen offsets (offsets.drop 1) i :=
      fun i hi => lens_listOffset h (by omega)
    have hoffs : offsTo (pairLen offsets (offsets.drop 1)) n
        = offsTo (listOffset p offsets c).lens n :=
      offsTo_congr (fun i hi => (hlens i hi).symm)
    have hsum : ∀ i, i ≤ n → sumTo (listOffset p offsets c).lens i
        = sumTo (pairLen offsets (offsets.drop 1)) i :=
      fun i hi => sumTo_congr (fun j hj => hlens j (by omega))
    simp only [listParts]
    rw [rd_ok (by omega) (by omega), bind_ok]
    split
    · rename_i h0
      have h0 : offsets[0] = 0 := by simpa using h0
      have hz := offs_zero hn hle h0
      have hget : ∀ i (hi : i < offsets.length),
          offsets[i] = (sumTo (listOffset p offsets c).lens i : Int) := by
        intro i hi
        have : offsets[i]? = (offsTo (pairLen offsets (offsets.drop 1)) n)[i]? := by rw [← hz]
        rw [List.getElem?_eq_getElem hi, List.getElem?_eq_getElem (by simp; omega),
          offsTo_getElem] at this
        rw [hsum i (by omega)]
        simpa using this
      refine ⟨offsets, c, rfl, ⟨hc, by rw [hclen]; exact hz.trans hoffs, ?_, ?_,
        ⟨c, by simp [children], .inl rfl⟩⟩, ?_⟩
      · rw [hclen]
        have h1 := offs_bound hp (by omega) h0 (i := n) (by omega)
        rw [hget n (by omega)] at h1; omega
      · intro i hi
        rw [hclen] at hi
        rw [valD_listOffset h (by omega), lens_listOffset h (by omega)]
        have h1 := hget i (by omega)
        have h2 := hget (i + 1) (by omega)
        have h3 := hlens i hi
        rw [sumTo_succ, h3] at h2
        simp only [params]
        rw [show offsets[i].toNat = sumTo (listOffset p offsets c).lens i by omega,
          show (offsets[i + 1] - offsets[i]).toNat = pairLen offsets (offsets.drop 1) i by omega]
      · simp only [rank]; omega
    · rw [listOffsetCompact_ok hn hle, bind_ok]
      obtain ⟨m1, m2, m3⟩ := make_pairs hp
      have hpm : offsTo (pairLen offsets (offsets.drop 1)) n
          = offsTo (pairLen (makeStarts offsets) (makeStops offsets)) n :=
        offsTo_congr (fun i hi => (pairLen_make (by omega)).symm)
      obtain ⟨c', e1, e2, e3, e4, e6, e5⟩ := listBroadcast_ok (n := n)
        (starts := makeStarts offsets) (stops := makeStops offsets) hc (by omega) (by omega)
        (fun i hi => m3 i (by omega) (by omega))
      rw [hpm, show offsets.length - 1 = n by omega, e1, bind_ok]
      have hsum' : ∀ i, i ≤ n → sumTo (listOffset p offsets c).lens i
          = sumTo (pairLen (makeStarts offsets) (makeStops offsets)) i := by
        intro i hi
        rw [hsum i hi]
        exact sumTo_congr (fun j hj => (pairLen_make (by omega)).symm)
      refine ⟨_, c', rfl, ⟨e2, by rw [hclen, ← hpm]; exact hoffs, ?_, ?_,
        ⟨c, by simp [children], e6⟩⟩, ?_⟩
      · rw [hclen, hsum' n (Nat.le_refl _)]; omega
      · intro i hi
        rw [hclen] at hi
        rw [valD_listOffset h (by omega), hlens i hi, ← pairLen_make (by omega),
          hsum' i (by omega), e5 i hi, makeStarts_getElem? (by omega), pairLen_make (by omega)]
        simp only [params, pairLen, List.getElem?_drop, show 1 + i = i + 1 by omega,
          List.getElem?_eq_getElem (show i < offsets.length by omega),
          List.getElem?_eq_getElem (show i + 1 < offsets.length by omega), Option.getD_some]
      · simp only [rank]; omega

end Content
end Awk
