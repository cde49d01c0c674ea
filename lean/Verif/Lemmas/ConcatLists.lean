import Verif.Model.ConcatLists
import Verif.Spec.ConcatLists
import Verif.Lemmas.Closed
import Verif.Lemmas.Flatten
import Verif.Lemmas.Simplify
import Verif.Lemmas.BcastLists
import Verif.Lemmas.BcastMask
import Verif.Model.Depth
/-
`ak.concatenate` at axis 1.
-/

namespace Awk
open R

/-! ### The tags and indexes of the joined lists -/

/-- All segments of a buffer. -/
def joined {α : Type} (S : Nat → List α) (n : Nat) : List α := ((List.range n).map S).flatten

theorem joined_succ {α : Type} (S : Nat → List α) (n : Nat) : joined S (n + 1) = joined S n ++ S n := by
  simp [joined, List.range_succ]

theorem joined_congr {α : Type} {S T : Nat → List α} {n : Nat} (h : ∀ i, i < n → S i = T i) :
    joined S n = joined T n := by
  unfold joined
  rw [List.map_congr_left (fun i hi => h i (List.mem_range.mp hi))]

theorem joined_split {α : Type} (S : Nat → List α) {n i : Nat} (hi : i < n) :
    ∃ post, ∀ T : List α, joined (fun j => if j = i then T else S j) n = joined S i ++ T ++ post := by
  induction n with
  | zero => omega
  | succ n ih =>
    by_cases he : i = n
    · subst he
      refine ⟨[], fun T => ?_⟩
      rw [joined_succ, if_pos rfl, joined_congr (T := S) (fun j hj => by rw [if_neg (by omega)])]
      simp
    · obtain ⟨post, hp⟩ := ih (by omega)
      refine ⟨post ++ S n, fun T => ?_⟩
      rw [joined_succ, hp, if_neg (by omega)]
      simp

theorem joined_length {α : Type} (S : Nat → List α) (n : Nat) :
    (joined S n).length = sumTo (fun i => (S i).length) n := flatten_map_length S

/-- The inner loop of the kernel. -/
theorem fill_run (tag : Int) (k : Nat) (pre post : List (Option (Int × Int))) (c : Nat) :
    forFrom (pre.length : Int) ((pre.length : Int) + (c : Int)) (fun j s =>
      wr s.1 j (some (tag, s.2)) >>= fun buf => ok (buf, s.2 + 1))
      (pre ++ List.replicate c Option.none ++ post, (k : Int))
      = ok (pre ++ (List.range c).map (fun (j : Nat) => some (tag, ((k + j : Nat) : Int))) ++ post,
          ((k + c : Nat) : Int)) := by
  have key : ∀ m, m ≤ c → forN m (fun (i : Nat) (s : List (Option (Int × Int)) × Int) =>
      wr s.1 ((pre.length : Int) + (i : Int)) (some (tag, s.2)) >>= fun buf => ok (buf, s.2 + 1))
      (pre ++ List.replicate c Option.none ++ post, (k : Int))
      = ok (pre ++ (List.range m).map (fun (j : Nat) => some (tag, ((k + j : Nat) : Int)))
          ++ List.replicate (c - m) Option.none ++ post, ((k + m : Nat) : Int)) := by
    intro m
    induction m with
    | zero => intro _; simp
    | succ m ih =>
      intro hm
      rw [forN_succ, ih (by omega), bind_ok]
      obtain ⟨r, hr⟩ : ∃ r, c - m = r + 1 := ⟨c - m - 1, by omega⟩
      simp only
      rw [hr, List.replicate_succ]
      unfold wr
      rw [if_pos (by constructor <;> (try simp) <;> omega), bind_ok]
      congr 2
      · rw [show ((pre.length : Int) + (m : Int)).toNat = (pre ++ (List.range m).map
            (fun (j : Nat) => some (tag, ((k + j : Nat) : Int)))).length by simp; omega]
        rw [List.append_assoc _ _ post, List.set_append_right _ _ (Nat.le_refl _)]
        simp only [Nat.sub_self, List.cons_append, List.set_cons_zero]
        rw [List.range_succ, show c - (m + 1) = r by omega]
        simp
  unfold forFrom
  rw [show ((pre.length : Int) + (c : Int) - (pre.length : Int)).toNat = c by omega, key c (Nat.le_refl _)]
  simp

/-- One call of the kernel: in every row, the next free places are filled. -/
theorem nestedfill_ok (tag : Int) {n : Nat} (A B : Nat → List (Option (Int × Int))) (L : Nat → Nat)
    {starts : List Int} (hs : starts.length = n + 1)
    (hst : ∀ i, i < n → starts[i]? = some
      ((sumTo (fun j => (A j).length + L j + (B j).length) i + (A i).length : Nat) : Int)) :
    ∃ starts', UnionArray_nestedfill_tags_index
        (joined (fun i => A i ++ List.replicate (L i) Option.none ++ B i) n) starts tag
        ((List.range n).map (fun i => (L i : Int))) n
      = ok (joined (fun i => A i ++ (List.range (L i)).map (fun (j : Nat) =>
          some (tag, ((sumTo L i + j : Nat) : Int))) ++ B i) n, starts') ∧
      starts'.length = n + 1 ∧
      (∀ i, i < n → starts'[i]? = some
        ((sumTo (fun j => (A j).length + L j + (B j).length) i + (A i).length + L i : Nat) : Int)) := by
  unfold UnionArray_nestedfill_tags_index
  let new : Nat → List (Option (Int × Int)) := fun i =>
    A i ++ (List.range (L i)).map (fun (j : Nat) => some (tag, ((sumTo L i + j : Nat) : Int))) ++ B i
  let old : Nat → List (Option (Int × Int)) := fun i => A i ++ List.replicate (L i) Option.none ++ B i
  obtain ⟨st, h1, h2, h3, h4, h5⟩ := forN_inv (n := n) (σ := List (Option (Int × Int)) × List Int × Int)
    (body := fun i st =>
      rd st.2.1 (i : Int) >>= fun start => rd ((List.range n).map (fun i => (L i : Int))) (i : Int) >>= fun count =>
      forFrom start (start + count) (fun j s =>
        wr s.1 j (some (tag, s.2)) >>= fun buf => ok (buf, s.2 + 1)) (st.1, st.2.2) >>= fun s =>
      wr st.2.1 (i : Int) (start + count) >>= fun tmpstarts => ok (s.1, tmpstarts, s.2))
    (s := (joined old n, starts, (0 : Int)))
    (fun i st => st.1 = joined (fun j => if j < i then new j else old j) n ∧ st.2.2 = ((sumTo L i : Nat) : Int) ∧
      st.2.1.length = n + 1 ∧ ∀ j, j < n → st.2.1[j]? = some
        (((sumTo (fun j => (A j).length + L j + (B j).length) j + (A j).length : Nat) : Int)
          + (if j < i then (L j : Int) else 0)))
    ⟨joined_congr (fun j _ => by simp), rfl, hs, fun j hj => by rw [hst j hj]; simp⟩ (by
      rintro i hi ⟨buf, ss, k⟩ ⟨rfl, rfl, g3, g4⟩
      simp only at g3 g4 ⊢
      have hg := g4 i hi
      rw [if_neg (by omega), Int.add_zero] at hg
      obtain ⟨hlt, hge⟩ := List.getElem?_eq_some_iff.mp hg
      rw [rd_nat_ok hlt, bind_ok, hge, rd_nat_ok (by simpa using hi), bind_ok]
      obtain ⟨post, hp⟩ := joined_split (fun j => if j < i then new j else old j) hi
      have hcur : joined (fun j => if j < i then new j else old j) n
          = (joined (fun j => if j < i then new j else old j) i ++ A i) ++ List.replicate (L i) Option.none
            ++ (B i ++ post) := by
        have := hp (old i)
        rw [← joined_congr (S := fun j => if j < i then new j else old j) (fun j _ => by
          by_cases hh : j = i
          · subst hh; simp
          · rw [if_neg hh])] at this
        rw [this]
        simp [old]
      have hpl : (joined (fun j => if j < i then new j else old j) i ++ A i).length
          = sumTo (fun j => (A j).length + L j + (B j).length) i + (A i).length := by
        rw [List.length_append, joined_length]
        congr 1
        refine sumTo_congr (fun j hj => ?_)
        rw [if_pos hj]
        simp [new]; omega
      simp only [List.getElem_map, List.getElem_range]
      rw [hcur, ← hpl, fill_run, bind_ok]
      unfold wr
      rw [if_pos (by omega), bind_ok]
      refine ⟨_, rfl, ?_, by rw [sumTo_succ], by simp [g3], ?_⟩
      · have hnew := hp (new i)
        rw [← joined_congr (S := fun j => if j < i + 1 then new j else old j) (fun j _ => by
          by_cases h : j = i
          · subst h; simp
          · rw [if_neg h]
            by_cases h' : j < i
            · rw [if_pos h', if_pos (by omega)]
            · rw [if_neg h', if_neg (by omega)])] at hnew
        rw [hnew]
        simp [new]
      · intro j hj
        rw [List.getElem?_set]
        by_cases h : i = j
        · subst h
          rw [if_pos (by simp), if_pos (by simp; omega), if_pos (by omega), hpl]
        · rw [if_neg (by simpa using h), g4 j hj]
          by_cases h' : j < i
          · rw [if_pos h', if_pos (by omega)]
          · rw [if_neg h', if_neg (by omega)])
  rw [h1, bind_ok]
  refine ⟨st.2.1, ?_, h4, fun i hi => ?_⟩
  · rw [h2, joined_congr (T := new) (fun j hj => if_pos hj)]
  · rw [h5 i hi, if_pos hi]; push_cast; rfl

/-- Row `i` of the pairs of tags and indexes, up to array `t`. -/
def tagRow (L : Nat → Nat → Nat) (t i : Nat) : List (Int × Int) :=
  joined (fun s => (List.range (L s i)).map (fun (j : Nat) => ((s : Int), ((sumTo (L s) i + j : Nat) : Int)))) t

theorem tagRow_length (L : Nat → Nat → Nat) (t i : Nat) : (tagRow L t i).length = sumTo (fun s => L s i) t := by
  rw [tagRow, joined_length]
  exact sumTo_congr (fun s _ => by simp)

theorem wrapInt_small {m : Nat} (h : m ≤ 127) : wrapInt true 8 (m : Int) = m := by
  unfold wrapInt
  simp only [true_and]
  rw [Int.emod_eq_of_lt (by omega) (by omega), if_neg (by omega)]

theorem mapR_written {α : Type} (l : List α) : mapR written (l.map some) = ok l := by
  rw [mapR_forall₂, List.forall₂_map_left_iff]
  exact List.forall₂_same.mpr (fun _ _ => rfl)

theorem joined_map {α β : Type} (f : α → β) (S : Nat → List α) (n : Nat) :
    (joined S n).map f = joined (fun i => (S i).map f) n := by
  simp [joined, List.map_flatten]
  rfl

theorem nestedTagsIndex_ok {n m : Nat} (L : Nat → Nat → Nat) (hm : m ≤ 127) :
    nestedTagsIndex (offsTo (fun i => sumTo (fun s => L s i) m) n)
      ((List.range m).map (fun s => (List.range n).map (fun i => (L s i : Int))))
      = ok (joined (tagRow L m) n) := by
  unfold nestedTagsIndex
  have hlast := rd_offsTo_last (f := fun i => sumTo (fun s => L s i) m) (n := n)
  rw [hlast, bind_ok]
  simp only [List.length_map, List.length_range, wrapInt_small hm, Int.toNat_natCast, offsTo_length,
    Nat.add_sub_cancel]
  have hrow : ∀ t i, t ≤ m → (tagRow L t i).length ≤ sumTo (fun s => L s i) m := by
    intro t i ht
    rw [tagRow_length]
    exact sumTo_mono ht
  obtain ⟨st, h1, h2, h3, h4⟩ := forN_inv (n := m) (σ := List (Option (Int × Int)) × List Int)
    (body := fun t st =>
      rd ((List.range m).map (fun s => (List.range n).map (fun i => (L s i : Int)))) (t : Int) >>= fun c =>
      UnionArray_nestedfill_tags_index st.1 st.2 (t : Int) c n)
    (s := (List.replicate (sumTo (fun i => sumTo (fun s => L s i) m) n) Option.none,
      offsTo (fun i => sumTo (fun s => L s i) m) n))
    (fun t st => st.1 = joined (fun i => (tagRow L t i).map some
        ++ List.replicate (sumTo (fun s => L s i) m - sumTo (fun s => L s i) t) Option.none) n ∧
      st.2.length = n + 1 ∧ ∀ i, i < n → st.2[i]? = some
        ((sumTo (fun i => sumTo (fun s => L s i) m) i + sumTo (fun s => L s i) t : Nat) : Int))
    ⟨by
      have : ∀ k, List.replicate (sumTo (fun i => sumTo (fun s => L s i) m) k) (Option.none (α := Int × Int))
          = joined (fun i => (tagRow L 0 i).map some
            ++ List.replicate (sumTo (fun s => L s i) m - sumTo (fun s => L s i) 0) Option.none) k := by
        intro k
        induction k with
        | zero => rfl
        | succ k ih =>
          rw [joined_succ, ← ih, sumTo_succ, ← List.replicate_append_replicate]
          simp [tagRow, joined]
      exact this n, by simp, fun i hi => by
        rw [List.getElem?_eq_getElem (by simp; omega), offsTo_getElem]; simp⟩ (by
      rintro t ht ⟨buf, ss⟩ ⟨rfl, g2, g3⟩
      simp only at g2 g3 ⊢
      rw [rd_nat_ok (by simpa using ht), bind_ok]
      simp only [List.getElem_map, List.getElem_range]
      have hsplit : ∀ i, sumTo (fun s => L s i) m - sumTo (fun s => L s i) t
          = L t i + (sumTo (fun s => L s i) m - sumTo (fun s => L s i) (t + 1)) := by
        intro i
        have := sumTo_mono (f := fun s => L s i) (show t + 1 ≤ m by omega)
        rw [sumTo_succ] at this ⊢
        omega
      have hbuf : joined (fun i => (tagRow L t i).map some
          ++ List.replicate (sumTo (fun s => L s i) m - sumTo (fun s => L s i) t) (Option.none (α := Int × Int))) n
          = joined (fun i => (tagRow L t i).map some ++ List.replicate (L t i) Option.none
            ++ List.replicate (sumTo (fun s => L s i) m - sumTo (fun s => L s i) (t + 1)) Option.none) n := by
        refine joined_congr (fun i _ => ?_)
        rw [hsplit i, ← List.replicate_append_replicate, List.append_assoc]
      have htot : ∀ i, sumTo (fun j => ((tagRow L t j).map some).length + L t j
            + (List.replicate (sumTo (fun s => L s j) m - sumTo (fun s => L s j) (t + 1))
              (Option.none (α := Int × Int))).length) i
          = sumTo (fun i => sumTo (fun s => L s i) m) i := by
        intro i
        refine sumTo_congr (fun j _ => ?_)
        have := sumTo_mono (f := fun s => L s j) (show t + 1 ≤ m by omega)
        rw [List.length_map, tagRow_length, List.length_replicate]
        rw [sumTo_succ] at this ⊢
        omega
      obtain ⟨ss', e1, e2, e3⟩ := nestedfill_ok (t : Int) (n := n) (fun i => (tagRow L t i).map some)
        (fun i => List.replicate (sumTo (fun s => L s i) m - sumTo (fun s => L s i) (t + 1)) Option.none)
        (fun i => L t i) g2 (fun i hi => by rw [g3 i hi, htot, List.length_map, tagRow_length])
      refine ⟨_, by rw [hbuf]; exact e1, ?_, e2, fun i hi => ?_⟩
      · refine joined_congr (fun i _ => ?_)
        have hs : tagRow L (t + 1) i = tagRow L t i
            ++ (List.range (L t i)).map (fun (j : Nat) => ((t : Int), ((sumTo (L t) i + j : Nat) : Int))) := joined_succ _ _
        rw [hs, List.map_append, List.map_map]
        rfl
      · rw [e3 i hi, htot, List.length_map, tagRow_length, sumTo_succ, Nat.add_assoc])
  have h1' : forI (m : Int) (fun tag (st : List (Option (Int × Int)) × List Int) =>
      rd ((List.range m).map (fun s => (List.range n).map (fun i => (L s i : Int)))) tag >>= fun c =>
      UnionArray_nestedfill_tags_index st.1 st.2 tag c n)
      (List.replicate (sumTo (fun i => sumTo (fun s => L s i) m) n) Option.none,
        offsTo (fun i => sumTo (fun s => L s i) m) n) = ok st := h1
  rw [h1', bind_ok, h2, joined_congr (T := fun i => (tagRow L m i).map some) (fun i _ => by simp),
    ← joined_map, mapR_written]

/-! ### The counts -/

theorem diffs_offsTo (f : Nat → Nat) (n : Nat) : diffs (offsTo f n) = (List.range n).map (fun i => (f i : Int)) := by
  apply List.ext_getElem
  · simp [diffs]
  · intro i h1 h2
    simp only [diffs, List.getElem_zipWith, List.getElem_tail, offsTo_getElem, List.getElem_map, List.getElem_range]
    exact sumTo_diff f i

theorem sumsFrom_eq (f : Nat → Nat) : ∀ (n k : Nat), sumsFrom ((sumTo f k : Nat) : Int)
    ((List.range n).map (fun i => (f (k + i) : Int))) = (List.range (n + 1)).map (fun i => (sumTo f (k + i) : Int))
  | 0, k => rfl
  | n + 1, k => by
    have ih := sumsFrom_eq f n (k + 1)
    rw [List.range_succ_eq_map, List.map_cons, sumsFrom, List.map_map]
    rw [show ((sumTo f k : Nat) : Int) + (f (k + 0) : Int) = ((sumTo f (k + 1) : Nat) : Int) by
      rw [sumTo_succ]; simp]
    rw [show (List.map ((fun i => (f (k + i) : Int)) ∘ Nat.succ) (List.range n))
        = (List.range n).map (fun i => (f (k + 1 + i) : Int)) from
      List.map_congr_left (fun i _ => by simp only [Function.comp_apply]; congr 2; omega), ih]
    rw [List.range_succ_eq_map (n := n + 1), List.map_cons, List.map_map]
    congr 1
    exact List.map_congr_left (fun i _ => by simp only [Function.comp_apply]; congr 2; omega)

theorem sumsFrom_zero (f : Nat → Nat) (n : Nat) :
    sumsFrom 0 ((List.range n).map (fun i => (f i : Int))) = offsTo f n := by
  have := sumsFrom_eq f n 0
  simpa [offsTo] using this

theorem addCounts_ok (f g : Nat → Nat) (n : Nat) :
    addCounts ((List.range n).map (fun i => (f i : Int))) ((List.range n).map (fun i => (g i : Int)))
      = ok ((List.range n).map (fun i => ((f i + g i : Nat) : Int))) := by
  unfold addCounts
  rw [if_pos (by simp)]
  congr 1
  apply List.ext_getElem
  · simp
  · intro i _ _; simp

theorem foldR_addCounts (L : Nat → Nat → Nat) (n : Nat) : ∀ (m k : Nat),
    foldR addCounts ((List.range n).map (fun i => ((sumTo (fun s => L s i) k : Nat) : Int)))
      ((List.range m).map (fun s => (List.range n).map (fun i => (L (k + s) i : Int))))
      = ok ((List.range n).map (fun i => ((sumTo (fun s => L s i) (k + m) : Nat) : Int)))
  | 0, k => rfl
  | m + 1, k => by
    have ih := foldR_addCounts L n m (k + 1)
    rw [List.range_succ_eq_map, List.map_cons, List.map_map, foldR]
    rw [show (k + 0) = k from rfl, addCounts_ok, bind_ok]
    rw [show (List.map ((fun s => (List.range n).map (fun i => (L (k + s) i : Int))) ∘ Nat.succ) (List.range m))
        = (List.range m).map (fun s => (List.range n).map (fun i => (L (k + 1 + s) i : Int))) from
      List.map_congr_left (fun s _ => by
        simp only [Function.comp_apply]
        rw [show k + s.succ = k + 1 + s by omega])]
    rw [show k + (m + 1) = k + 1 + m by omega]
    exact ih

namespace Content

/-! ### Gathering keeps what merging needs -/

/-- `JoinNode` everywhere, and with `true` not a record. -/
def Joinable (no : Without) (b : Bool) (c : Content) : Prop :=
  AllNodes (JoinNode no) c ∧ (b = true → c.cls ≠ 4)

theorem Joinable.closed (no : Without) : Closed (Joinable no) where
  lazy := by
    rintro b idx c hc ⟨h1, h2⟩
    refine ⟨.mk ⟨?_, fun _ => rfl⟩ (by simpa [children] using h1), fun h => absurd hc (h2 h)⟩
    intro hi
    have := h1.here.2 hi
    cases c <;> simp [cls] at hc
    simp [isRecord] at this
  node := by
    rintro c' c hc hl hd b ⟨h1, h2⟩
    refine ⟨.mk ⟨?_, ?_⟩ (fun d' hd' => ?_), fun h => by rw [hc]; exact h2 h⟩
    · have h0 := h1.here.1
      have hp := hl.params
      cases c' with
      | empty p => trivial
      | listOffset p offs d => trivial
      | listArray p st sp d => trivial
      | numpy p dt data =>
        obtain ⟨p', data', rfl, _⟩ := hl.leaf _ _ _ rfl
        simp only [Content.params] at hp
        subst hp; exact h0
      | regular p d s z =>
        obtain ⟨p', d', z', rfl⟩ := hl.reg _ _ _ _ rfl
        by_cases hs : s = 1
        · subst hs
          obtain ⟨d0, hd0, hk⟩ := hd d (by simp [children])
          simp only [children, List.mem_singleton] at hd0
          subst hd0
          have hnr : d0.cls ≠ 4 := by
            intro hcl
            cases d0 <;> simp [cls] at hcl
            exact absurd h0 (by simp [MergeNode])
          have := (hk true ⟨h1.child (by simp [children]), fun _ => hnr⟩).2 rfl
          cases d <;> first | trivial | exact absurd rfl this
        · cases d <;> first | trivial | exact hs
      | record p k cs n =>
        obtain ⟨p', cs', n', rfl⟩ := hl.keys _ _ _ _ rfl
        have hw := hl.width
        simp only [children] at hw
        refine ⟨?_, hl.trim _ _ _ _ rfl, fun ks hk => ⟨(h0.2.2 ks hk).1, by have := (h0.2.2 ks hk).2; omega⟩⟩
        intro hh; apply h0.1; subst hh; simpa using hw.symm
      | union p t i cs => cases c <;> simp [cls] at hc; exact h0
      | indexed p i d => cases c <;> simp [cls] at hc; exact h0
      | indexedOption p i d => cases c <;> simp [cls] at hc <;> exact h0
      | byteMasked p m v d => cases c <;> simp [cls] at hc <;> exact h0
      | bitMasked p m v n l d => cases c <;> simp [cls] at hc <;> exact h0
      | unmasked p d => cases c <;> simp [cls] at hc <;> exact h0
    · intro hi
      have := h1.here.2 hi
      cases c' <;> cases c <;> simp [cls] at hc <;> simp [isRecord] at this ⊢
    · obtain ⟨d, hd1, hd2⟩ := hd d' hd'
      exact (hd2 false ⟨h1.child hd1, by simp⟩).1

/-- `offsets_and_flattened` of lists. -/
theorem flattenF_lists {no : Without} {c : Content} (h : c.Good)
    (hl : c.isListNode = true) (hn : AllNodes (JoinNode no) c) :
    ∃ oc, flattenF c.rank c = ok oc ∧ Flat c oc ∧ Input no oc.2 := by
  obtain ⟨offs, c', h1, h2, h3⟩ := listParts_ok h hl
  obtain ⟨d, g1, g2, g3, g4, _⟩ := range_good h2.good (a := 0) (b := sumTo c.lens c.len) (by omega) h2.bound
  have h1' : rd offs ((offs.length - 1 : Nat) : Int) = ok (sumTo c.lens c.len : Int) := by
    rw [h2.offs_eq]; exact rd_offsTo_last
  have g1' : c'.range 0 (sumTo c.lens c.len : Int) = ok d := g1
  have hf : ∀ f, flattenF (f + 1) c = ok (offs, d) := by
    intro f
    cases c <;> simp only [isListNode, Bool.false_eq_true] at hl <;>
      simp only [flattenF, h1, bind_ok, h1', g1']
  have hf' : flattenF c.rank c = ok (offs, d) := by
    rw [show c.rank = (c.rank - 1) + 1 by omega]; exact hf _
  obtain ⟨oc, e1, e2⟩ := flatten_parts h hl
  have hoc : oc = (offs, d) := by
    rw [h1, bind_ok] at e1
    simp only [h1', bind_ok, g1', ok.injEq] at e1
    exact e1.symm
  subst hoc
  refine ⟨_, hf', e2, g2, ?_⟩
  obtain ⟨e, he1, he2⟩ := h2.src
  have he := Gathered.closed (Joinable.closed no) (h.child he1) he2 false ⟨hn.child he1, by simp⟩
  exact (range_closed (Joinable.closed no) h2.good h2.bound g1 false he).1.mono (fun _ h => h.1)

theorem joined_get {α : Type} (S : Nat → List α) {n i k : Nat} (hi : i < n) (hk : k < (S i).length) :
    (joined S n)[sumTo (fun i => (S i).length) i + k]? = (S i)[k]? := flatten_map_get S hi hk

theorem mem_joined {α : Type} {S : Nat → List α} {n : Nat} {x : α} (h : x ∈ joined S n) :
    ∃ i, i < n ∧ x ∈ S i := by
  simp only [joined, List.mem_flatten, List.mem_map, List.mem_range] at h
  obtain ⟨l, ⟨i, hi, rfl⟩, hx⟩ := h
  exact ⟨i, hi, hx⟩

theorem mem_tagRow {L : Nat → Nat → Nat} {m i : Nat} {x : Int × Int} (h : x ∈ tagRow L m i) :
    ∃ s j, s < m ∧ j < L s i ∧ x = ((s : Int), ((sumTo (L s) i + j : Nat) : Int)) := by
  obtain ⟨s, hs, hx⟩ := mem_joined h
  simp only [List.mem_map, List.mem_range] at hx
  obtain ⟨j, hj, rfl⟩ := hx
  exact ⟨s, j, hs, hj, rfl⟩

/-- The union that is made of the flattened arrays. -/
theorem tagged_good {no : Without} {L : Nat → Nat → Nat} {m n : Nat} {ds : List Content}
    (hm : ds.length = m) (hd : ∀ d ∈ ds, Input no d)
    (hl : ∀ s (h : s < ds.length), (ds[s]).len = sumTo (L s) n) :
    (union {} ((joined (tagRow L m) n).map Prod.fst) ((joined (tagRow L m) n).map Prod.snd) ds).Good := by
  refine good_union.mpr ⟨by simp, fun c hc => (hd c hc).1, fun i hi => ?_⟩
  have hi' : i < (joined (tagRow L m) n).length := by simpa using hi
  obtain ⟨r, hr, hx⟩ := mem_joined (List.getElem_mem hi')
  obtain ⟨s, j, hs, hj, hx⟩ := mem_tagRow hx
  simp only [List.getElem_map, hx]
  refine ⟨by omega, by simpa using by omega, by omega, ?_⟩
  simp only [Int.toNat_natCast]
  rw [hl s (by omega)]
  have h1 : sumTo (L s) (r + 1) ≤ sumTo (L s) n := sumTo_mono (by omega)
  rw [sumTo_succ] at h1
  omega

/-- The values of the union. -/
theorem tagged_cv {no : Without} {L : Nat → Nat → Nat} {m n : Nat} {ds : List Content}
    (hm : ds.length = m) (hd : ∀ d ∈ ds, Input no d)
    (hl : ∀ s (h : s < ds.length), (ds[s]).len = sumTo (L s) n) :
    (union {} ((joined (tagRow L m) n).map Prod.fst) ((joined (tagRow L m) n).map Prod.snd) ds).cv
      = joined (fun i => joined (fun s => ((ds[s]?.getD (empty {})).seg (sumTo (L s) i) (L s i)).map Val.canon) m) n := by
  have hg := tagged_good hm hd hl
  have h1 : (union {} ((joined (tagRow L m) n).map Prod.fst) ((joined (tagRow L m) n).map Prod.snd) ds).cv
      = (joined (tagRow L m) n).map
        (fun x => ((ds[x.1.toNat]?.getD (empty {})).valD x.2.toNat).canon) := by
    apply List.ext_getElem
    · simp [len]
    · intro k h1 h2
      have hk : k < (joined (tagRow L m) n).length := by simpa using h2
      obtain ⟨_, _, hp⟩ := good_union.mp hg
      obtain ⟨_, ht, _⟩ := hp k (by simpa using hk)
      simp only [cv, List.getElem_map, List.getElem_range]
      rw [valD_union hg (by simpa using hk) (by simpa using hk) ht]
      simp only [List.getElem_map] at ht ⊢
      rw [List.getElem?_eq_getElem ht]; rfl
  rw [h1, joined_map]
  refine joined_congr (fun i hi => ?_)
  unfold tagRow
  have := joined_map (fun x : Int × Int => ((ds[x.1.toNat]?.getD (empty {})).valD x.2.toNat).canon)
    (fun s => (List.range (L s i)).map (fun (j : Nat) => ((s : Int), ((sumTo (L s) i + j : Nat) : Int)))) m
  rw [show joined (fun s => (List.range (L s i)).map (fun (j : Nat) => ((s : Int), ((sumTo (L s) i + j : Nat) : Int)))) m
    = ((List.range m).map (fun s => (List.range (L s i)).map (fun (j : Nat) => ((s : Int), ((sumTo (L s) i + j : Nat) : Int))))).flatten from rfl] at this
  refine Eq.trans this (joined_congr (fun s hs => ?_))
  simp only [seg, List.map_map]
  refine List.map_congr_left (fun j _ => ?_)
  simp only [Function.comp, Int.toNat_natCast]

/-- `concatLists`: the lists of a row are appended. -/
theorem concatLists_ok {same : Content → Content → Bool} (hsame : ∀ a b, same a b = true → a = b)
    {no : Without} (hu : no.union) {domerge mb : Bool} (hdm : domerge = true → no.indexed ∨ no.option)
    {cs : List Content} (hne : cs ≠ []) (hm : cs.length ≤ 127) {n : Nat}
    (hg : ∀ c ∈ cs, c.Good) (hl : ∀ c ∈ cs, c.isListNode = true) (hn : ∀ c ∈ cs, c.len = n)
    (hj : ∀ c ∈ cs, AllNodes (JoinNode no) c) :
    ∃ out, concatLists same domerge mb cs = ok out ∧ out.Good ∧ out.len = n ∧
      out.isListNode = true ∧
      ∀ i, i < n → (out.valD i).canon = (Val.list ((cs.map (fun c => (c.valD i).items)).flatten)).canon := by
  obtain ⟨ocs, h1, h2⟩ := mapR_exists (f := fun c => flattenF c.rank c)
    (P := fun c oc => Flat c oc ∧ Input no oc.2) (cs := cs)
    (fun c hc => flattenF_lists (hg c hc) (hl c hc) (hj c hc))
  obtain ⟨hlen, h2⟩ := List.forall₂_iff_get.mp h2
  let L : Nat → Nat → Nat := fun s i => (cs[s]?.getD (empty {})).lens i
  have hL : ∀ s (h : s < cs.length), L s = (cs[s]).lens := fun s h => by
    funext i; simp only [L]; rw [List.getElem?_eq_getElem h]; rfl
  have hd : ocs.map (fun oc => diffs oc.1)
      = (List.range cs.length).map (fun s => (List.range n).map (fun i => (L s i : Int))) := by
    apply List.ext_getElem
    · simp [hlen]
    · intro s g1 g2
      have hs : s < cs.length := by simpa using g2
      simp only [List.getElem_map, List.getElem_range]
      have := (h2 s hs (by omega)).1
      simp only [List.get_eq_getElem] at this
      rw [this.offs_eq, diffs_offsTo, hn _ (List.getElem_mem hs), hL s hs]
  have h0 : List.replicate ((cs.map len).headD 0) (0 : Int)
      = (List.range n).map (fun i => ((sumTo (fun s => L s i) 0 : Nat) : Int)) := by
    cases cs with
    | nil => exact absurd rfl hne
    | cons c cs => simp [hn c (by simp)]
  have hf := foldR_addCounts L n cs.length 0
  simp only [Nat.zero_add] at hf
  have hin : ∀ d ∈ ocs.map Prod.snd, Input no d := by
    intro d hd
    simp only [List.mem_map] at hd
    obtain ⟨oc, hoc, rfl⟩ := hd
    obtain ⟨s, hs, rfl⟩ := List.getElem_of_mem hoc
    exact (h2 s (by omega) hs).2
  have hlens : ∀ s (h : s < (ocs.map Prod.snd).length), ((ocs.map Prod.snd)[s]).len = sumTo (L s) n := by
    intro s hs
    have hs' : s < cs.length := by simp at hs; omega
    have := (h2 s hs' (by omega)).1
    simp only [List.get_eq_getElem] at this
    simp only [List.getElem_map]
    rw [this.len_eq, hn _ (List.getElem_mem hs'), hL s hs']
  have hgood := tagged_good (m := cs.length) (n := n) (L := L) (by simp [hlen]) hin hlens
  have hcv := tagged_cv (m := cs.length) (n := n) (L := L) (by simp [hlen]) hin hlens
  have halts : ∀ d, Input no d → d.alts = [d] := by
    intro d hd
    have := hd.2.here
    cases d <;> try rfl
    exact absurd hu this
  have hs := simplifyUnion_ok hsame (no := no) (domerge := domerge) (mb := mb) hdm hgood (by
    intro c hc d hd
    rw [halts c (hin c hc), List.mem_singleton] at hd
    subst hd; exact hin _ hc)
  obtain ⟨inner, hi1⟩ := hs.2 ⟨hu, by
    rw [List.flatMap_congr (g := fun d => [d]) (fun d hd => halts d (hin d hd))]
    simp; omega⟩
  have hs' := hs.1
  rw [hi1] at hs'
  obtain ⟨hi2, hi3⟩ := hs'
  let T : Nat → Nat := fun i => sumTo (fun s => L s i) cs.length
  have hT : ∀ i, ((joined (fun s => (((ocs.map Prod.snd)[s]?.getD (empty {})).seg (sumTo (L s) i) (L s i)).map Val.canon) cs.length)).length = T i := by
    intro i; rw [joined_length]; simp [T]
  have hil : inner.len = sumTo T n := by
    rw [← cv_length, hi3, hcv, joined_length]
    simp only [hT]
  have hok : concatLists same domerge mb cs = ok (listOffset {} (offsTo T n) inner) := by
    unfold concatLists
    rw [h1, bind_ok, hd, h0, hf, bind_ok, sumsFrom_zero (fun i => sumTo (fun s => L s i) cs.length),
      nestedTagsIndex_ok L hm, bind_ok, hi1, bind_ok]
  have hgo : (listOffset {} (offsTo T n) inner).Good := by
    refine good_listOffset.mpr ⟨by simp, hi2, fun i hi => ?_⟩
    have hi' : i + 1 ≤ n := by simp at hi; omega
    have g1 := sumTo_mono (f := T) hi'
    have g2 := sumTo_mono (f := T) (show i ≤ i + 1 by omega)
    simp only [offsTo_getElem]
    exact Or.inr ⟨by omega, by omega, by omega⟩
  refine ⟨_, hok, hgo, by simp [len], rfl, fun i hi => ?_⟩
  rw [valD_listOffset hgo (by simpa using hi)]
  simp only [offsTo_getElem, sumTo_diff, Int.toNat_natCast, wrapList]
  simp only [Val.canon, Val.canonList_eq]
  congr 1
  have hrow : (inner.seg (sumTo T i) (T i)).map Val.canon
      = joined (fun s => (((ocs.map Prod.snd)[s]?.getD (empty {})).seg (sumTo (L s) i) (L s i)).map Val.canon) cs.length := by
    apply List.ext_getElem?
    intro k
    by_cases hk : k < T i
    · have hb : sumTo T i + k < inner.len := by
        have := sumTo_mono (f := T) (show i + 1 ≤ n by omega)
        rw [sumTo_succ] at this
        omega
      have := cv_get hb
      rw [hi3, hcv] at this
      have hj := joined_get (fun i => joined (fun s => (((ocs.map Prod.snd)[s]?.getD (empty {})).seg (sumTo (L s) i) (L s i)).map Val.canon) cs.length) hi (k := k) (by rw [hT]; exact hk)
      simp only [hT] at hj
      rw [← hj, this]
      simp [seg, hk]
    · rw [List.getElem?_eq_none (by simp; omega), List.getElem?_eq_none (by rw [hT]; omega)]
  rw [hrow, List.map_flatten, List.map_map]
  unfold joined
  congr 1
  apply List.ext_getElem
  · simp
  · intro s g1 g2
    have hs : s < cs.length := by simpa using g2
    simp only [List.getElem_map, List.getElem_range, Function.comp]
    have := (h2 s hs (by omega)).1
    simp only [List.get_eq_getElem] at this
    rw [← this.vals i (by rw [hn _ (List.getElem_mem hs)]; exact hi), hL s hs,
      List.getElem?_eq_getElem (by simp; omega)]
    simp

/-! ### The outermost level -/

theorem foldl_max_all (n : Nat) : ∀ (l : List Nat), l ≠ [] → (∀ x ∈ l, x = n) → l.foldl max 0 = n := by
  have key : ∀ (l : List Nat) (a : Nat), (∀ x ∈ l, x = n) → l.foldl max a = if l = [] then a else max a n := by
    intro l
    induction l with
    | nil => intro a _; simp
    | cons x l ih =>
      intro a h
      rw [List.foldl_cons, ih _ (fun y hy => h y (by simp [hy])), h x (by simp)]
      split <;> simp
  intro l hl h
  rw [key l 0 h, if_neg hl]; simp

theorem mapR_jagged_false (cs : List Content) : mapR (regularToJagged false) cs = ok cs := by
  rw [mapR_forall₂]
  refine List.forall₂_same.mpr (fun d _ => ?_)
  cases d <;> rfl

theorem bcastSwitch_pack {next : Nat → List Content → R (List Content)} {cs : List Content} (hne : cs ≠ []) :
    bcastSwitch ⟨false, false, true⟩ next 0 (cs.map pack) = regularStep (next 1) (cs.map pack) := by
  unfold bcastSwitch
  rw [if_neg (by simp [pack]), if_neg (by simp [pack]), if_neg (by simp [pack, isUnion]),
    if_neg (by simp [pack, isOption])]
  rw [if_pos (by
    cases cs with
    | nil => exact absurd rfl hne
    | cons c cs => simp [pack, isListNode]), if_pos (by simp [pack, isJagged])]

/-- When the caller's function stops at the lists of the inputs. -/
theorem bcast_top {get : Nat → List Content → R (Option (List Content))} {fuel n : Nat} {cs cs' : List Content}
    {o : Content} (hf : 2 ≤ fuel) (hne : cs ≠ []) (hn : n < 2 ^ 63 - 1) (hl : ∀ c ∈ cs, c.len = n)
    (h0 : get 0 (cs.map pack) = ok none)
    (hr : List.Forall₂ (fun c c' => c.range 0 (n : Int) = ok c') cs cs') (hl' : ∀ c ∈ cs', c.len = n)
    (h1 : get 1 cs' = ok (some [o])) (ho : o.Good) (hol : o.len = n) :
    ∃ d, bcastAndApply ⟨false, false, true⟩ get fuel cs = ok [.array d] ∧ d.Good ∧
      d.toList = ok ((List.range n).map o.valD) := by
  obtain ⟨f, rfl⟩ : ∃ f, fuel = f + 2 := ⟨fuel - 2, by omega⟩
  have hne' : cs' ≠ [] := by
    intro h; subst h; cases hr; exact hne rfl
  have hlens : ∀ (ds : List Content) (k : Nat), (∀ d ∈ ds, d.len = k) →
      ds.any (fun c => c.len != ((ds.map len).headD 0)) = false := by
    intro ds k h
    rw [List.any_eq_false]
    intro d hd
    cases ds with
    | nil => simp at hd
    | cons e ds => simp [h d hd, h e (by simp)]
  have hpc : mapR (bcastRegular n) (cs.map pack) = ok cs' := by
    rw [mapR_forall₂, List.forall₂_map_left_iff]
    refine List.Forall₂.imp ?_ ((List.forall₂_and_left (p := fun c => c ∈ cs) cs cs').mpr ⟨fun _ h => h, hr⟩)
    rintro c c' ⟨hc, h⟩
    have hp := pack_len c
    have hd := hl c hc
    unfold pack at hp ⊢
    simp only [bcastRegular, hp, Nat.one_mul]
    rw [if_neg (by omega), if_pos hd, hd, getitemRange_exact (by omega) hn, h]
  have h2 : bcastWith ⟨false, false, true⟩ get (f + 1) 1 cs' = ok [o] := by
    rw [bcastWith]
    simp only [mapR_jagged_false, bind_ok, Bool.false_eq_true, if_false]
    rw [if_neg (by rw [hlens cs' n hl']; simp)]
    simp only [h1, bind_ok]
  have h3 : bcastWith ⟨false, false, true⟩ get (f + 2) 0 (cs.map pack) = ok [regular {} o n n] := by
    rw [bcastWith]
    simp only [mapR_jagged_false, bind_ok, Bool.false_eq_true, if_false]
    rw [if_neg (by
      rw [hlens (cs.map pack) 1 (fun d hd => by
        obtain ⟨c, _, rfl⟩ := List.mem_map.mp hd
        exact pack_len c)]
      simp)]
    simp only [h0, bind_ok]
    rw [bcastSwitch_pack hne]
    unfold regularStep
    rw [foldl_max_all n _ (by simpa using hne) (by
      intro x hx
      simp only [List.map_map, List.mem_map, Function.comp] at hx
      obtain ⟨c, hc, rfl⟩ := hx
      simpa [pack, regularSize] using hl c hc)]
    simp only [hpc, bind_ok, h2, List.map_cons, List.map_nil]
    rw [foldl_max_all n _ (by simpa using hne') (by
      intro x hx
      obtain ⟨c, hc, rfl⟩ := List.mem_map.mp hx
      exact hl' c hc)]
  obtain ⟨d, d1, d2, _, d4, _⟩ := range_good ho (a := 0) (b := n) (by omega) (by omega)
  have hdl : d.len = n := by simpa using d4.1
  refine ⟨d, ?_, d2, ?_⟩
  · unfold bcastAndApply
    rw [show cs.map (fun c => regular {} c c.len 1) = cs.map pack from rfl, h3, bind_ok]
    have : bcastItem (regular {} o n n) = ok (.array d) := by
      unfold bcastItem
      by_cases hm0 : n = 0
      · subst hm0
        have : (regular {} o 0 0).len = 0 := rfl
        rw [if_pos this]
        simp only
        rw [show (o.range 0 0) = ok d from d1]
        rfl
      · have hl : (regular {} o n n).len = 1 := by
          simp only [Content.len]
          rw [if_pos hm0, hol, Nat.div_self (by omega)]
        rw [if_neg (by omega)]
        unfold getitemAt
        simp only [Int.lt_irrefl, if_false]
        rw [if_neg (by omega)]
        simp only [getitemAtNowrap, show (0 : Int).toNat = 0 from rfl, Nat.cast_zero, Int.zero_mul,
          Int.zero_add, Int.one_mul]
        rw [show (o.range 0 n) = ok d from d1]
        rfl
    simp only [mapR, this, bind_ok]
  · rw [d2.toList, hdl]
    congr 1
    refine List.map_congr_left (fun i hi => ?_)
    have hi := List.mem_range.mp hi
    simpa using d4.valD (show i < n - 0 by omega)

/-- Arrays that can be merged have a depth. -/
theorem depth_pos {no : Without} (hu : no.union) {c : Content} (h : AllNodes (JoinNode no) c) :
    1 ≤ c.minmaxDepth.2 := by
  induction c using induct with
  | empty p => simp [minmaxDepth]
  | numpy p dt data => simp [minmaxDepth]
  | regular p c s z ih =>
    have := ih (h.child (by simp [children]))
    simp only [minmaxDepth, listDepth]; split <;> omega
  | listArray p s t c ih =>
    have := ih (h.child (by simp [children]))
    simp only [minmaxDepth, listDepth]; split <;> omega
  | listOffset p o c ih =>
    have := ih (h.child (by simp [children]))
    simp only [minmaxDepth, listDepth]; split <;> omega
  | indexed p i c ih => exact ih (h.child (by simp [children]))
  | indexedOption p i c ih => exact ih (h.child (by simp [children]))
  | byteMasked p m v c ih => exact ih (h.child (by simp [children]))
  | bitMasked p m v l n c ih => exact ih (h.child (by simp [children]))
  | unmasked p c ih => exact ih (h.child (by simp [children]))
  | record p k cs n ih =>
    have h0 := h.here.1
    simp only [minmaxDepth]
    cases cs with
    | nil => exact absurd rfl h0.1
    | cons c cs =>
      have := ih c (by simp) (h.child (by simp [children]))
      simp only [minmaxDepthAll]
      split <;> simp <;> omega
  | union p t i cs ih => exact absurd hu h.here.1

/-- A range of lists consists of lists. -/
theorem range_lists {c c' : Content} (h : c.Good) (hl : c.isListNode = true) {n : Nat} (hn : n ≤ c.len)
    (h1 : c.range 0 (n : Int) = ok c') : c'.isListNode = true := by
  have hP : Closed (fun (_ : Unit) (c : Content) => c.cls = 2) :=
    { lazy := fun h h' => by simp [h] at h'
      node := fun h _ _ _ h' => by rw [h]; exact h' }
  have h2 : c.cls = 2 := by cases c <;> simp [isListNode] at hl <;> rfl
  have := range_closed hP h hn h1 () h2
  cases c' <;> simp [cls] at this <;> rfl

/-- `ak.concatenate` at axis 1 of arrays of lists. -/
theorem concatenate_lists_ok {same : Content → Content → Bool} (hsame : ∀ a b, same a b = true → a = b)
    {no : Without} (hu : no.union) {domerge mb : Bool} (hdm : domerge = true → no.indexed ∨ no.option)
    {fuel : Nat} (hf : 2 ≤ fuel)
    {cs : List Content} (hne : cs ≠ []) (hm : cs.length ≤ 127) {n : Nat} (hn : n < 2 ^ 63 - 1)
    (hg : ∀ c ∈ cs, c.Good) (hl : ∀ c ∈ cs, c.ListArrays) (hlen : ∀ c ∈ cs, c.len = n)
    (hj : ∀ c ∈ cs, AllNodes (JoinNode no) c) {axis : Int} (hax : ∀ c ∈ cs, c.axisWrap axis = ok 1) :
    ∃ out us, concatenate same domerge mb fuel axis cs = ok (.array out) ∧ out.Good ∧ out.toList = ok us ∧
      us.map Val.canon = (List.range n).map (fun i =>
        (Val.list ((cs.map (fun c => (c.valD i).items)).flatten)).canon) := by
  have hdep : ∀ c ∈ cs, 2 ≤ c.minmaxDepth.2 := by
    intro c hc
    obtain ⟨h1, h2⟩ := hl c hc
    have hjc := hj c hc
    cases c <;> simp only [isListNode, Bool.false_eq_true] at h1 <;> simp only [Content.params] at h2 <;>
    · have := depth_pos hu (hjc.child (d := _) (by simp [children]; rfl))
      simp only [minmaxDepth, listDepth, h2]
      rw [if_neg (by simp)]
      omega
  -- the ranges
  obtain ⟨cs', r1, r2⟩ := mapR_exists (f := fun c => c.range 0 (n : Int))
    (P := fun c c' => c.range 0 (n : Int) = ok c' ∧ c'.Good ∧ c'.len = n ∧ c'.isListNode = true ∧
      AllNodes (JoinNode no) c' ∧ ∀ i, i < n → c'.valD i = c.valD i) (cs := cs) (fun c hc => by
      obtain ⟨c', c1, c2, _, c4, _⟩ := range_good (hg c hc) (a := 0) (b := n) (by omega) (by rw [hlen c hc])
      refine ⟨c', c1, c1, c2, by simpa using c4.1,
        range_lists (hg c hc) (hl c hc).1 (by rw [hlen c hc]) c1,
        (range_closed (Joinable.closed no) (hg c hc) (by rw [hlen c hc]) c1 false ⟨hj c hc, by simp⟩).1,
        fun i hi => by simpa using c4.valD (show i < n - 0 by omega)⟩)
  have hall : ∀ {Q : Content → Prop}, (∀ c c' : Content, c.range 0 (n : Int) = ok c' ∧ c'.Good ∧ c'.len = n ∧ c'.isListNode = true ∧
      AllNodes (JoinNode no) c' ∧ (∀ i, i < n → c'.valD i = c.valD i) → Q c') → ∀ c' ∈ cs', Q c' := by
    intro Q hQ c' hc'
    obtain ⟨hle, r3⟩ := List.forall₂_iff_get.mp r2
    obtain ⟨s, hs, rfl⟩ := List.getElem_of_mem hc'
    exact hQ _ _ (r3 s (by omega) hs)
  have hne' : cs' ≠ [] := by
    intro h; subst h; cases r2; exact hne rfl
  obtain ⟨o, o1, o2, o3, _, o5⟩ := concatLists_ok hsame hu (domerge := domerge) (mb := mb) hdm hne'
    (by rw [← r2.length_eq]; exact hm) (hall (fun _ _ h => h.2.1)) (hall (fun _ _ h => h.2.2.2.1))
    (hall (fun _ _ h => h.2.2.1)) (hall (fun _ _ h => h.2.2.2.2.1))
  have hopt : cs'.any isOption = false := by
    rw [List.any_eq_false]
    intro c hc
    have := hall (Q := fun c => c.isListNode = true) (fun _ _ h => h.2.2.2.1) c hc
    cases c <;> simp [isListNode] at this <;> simp [isOption]
  have hlist : cs'.all isListNode = true := by
    rw [List.all_eq_true]
    exact hall (fun _ _ h => h.2.2.2.1)
  obtain ⟨d, d1, d2, d3⟩ := bcast_top (get := concatGet same domerge mb 1) (o := o) hf hne hn hlen (by
      unfold concatGet
      rw [if_neg (by simp), bind_ok, if_neg (by simp), if_neg]
      simp only [List.any_map, List.any_eq_true, Function.comp, decide_eq_true_eq, not_exists, not_and]
      intro c hc h
      have := hdep c hc
      have h2 := congrArg Prod.snd h
      simp only [pack, minmaxDepth, listDepth] at h2
      rw [if_neg (by simp)] at h2
      omega) (r2.imp (fun _ _ h => h.1)) (hall (fun _ _ h => h.2.2.1)) (by
      unfold concatGet
      rw [if_neg (by rw [hopt]; simp), bind_ok, if_pos ⟨rfl, hlist⟩, o1, bind_ok]) o2 o3
  refine ⟨d, _, ?_, d2, d3, ?_⟩
  · unfold concatenate
    cases cs with
    | nil => exact absurd rfl hne
    | cons c cs =>
      simp only
      rw [hax c (by simp), bind_ok]
      rw [if_neg]
      swap
      · simp only [not_not]
        refine ⟨by omega, ?_⟩
        have hge : ∀ (l : List Int) (a : Int), a ≤ l.foldl max a := by
          intro l
          induction l with
          | nil => intro a; exact Int.le_refl _
          | cons x l ih => intro a; exact Int.le_trans (Int.le_max_left _ _) (ih _)
        have h1 := hge (cs.map (fun c => c.minmaxDepth.2)) (max 0 c.minmaxDepth.2)
        have h2 := hdep c (by simp)
        simp only [List.map_cons, List.foldl_cons]
        omega
      obtain ⟨axes, a1, a2⟩ := mapR_exists (f := fun c => axisWrap c axis) (P := fun _ a => a = 1)
        (cs := c :: cs) (fun c hc => ⟨1, hax c hc, rfl⟩)
      have ha : ∀ a ∈ axes, a = 1 := by
        intro a ha
        obtain ⟨hle, r3⟩ := List.forall₂_iff_get.mp a2
        obtain ⟨s, hs, rfl⟩ := List.getElem_of_mem ha
        exact r3 s (by omega) hs
      rw [a1, bind_ok, if_neg (by simpa using ha), if_neg (by omega), d1]
      rfl
  · rw [List.map_map]
    refine List.map_congr_left (fun i hi => ?_)
    have hi := List.mem_range.mp hi
    simp only [Function.comp]
    rw [o5 i hi]
    congr 3
    obtain ⟨hle, r3⟩ := List.forall₂_iff_get.mp r2
    apply List.ext_getElem
    · simp [hle]
    · intro s g1 g2
      have hs : s < cs.length := by simpa using g2
      have := (r3 s hs (by omega)).2.2.2.2.2 i hi
      simp only [List.get_eq_getElem] at this
      simp only [List.getElem_map, this]

end Content

end Awk
