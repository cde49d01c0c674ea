import Mathlib.Data.List.Perm.Basic
import Verif.Model.Complete
import Verif.Spec.Complete
import Verif.Lemmas.Flatten
import Verif.Lemmas.Apply
import Verif.Lemmas.AllNodes
/-
Lemmas about operations on all numbers of an array.
-/

namespace Awk
open R

namespace Val

theorem leavesAll_eq (vs : List Val) : leavesAll vs = vs.flatMap leaves := by
  induction vs with
  | nil => rfl
  | cons v vs ih => simp [leavesAll, ih]

theorem leavesFields_zip : ∀ {ks : List String} {vs : List Val}, ks.length = vs.length →
    leavesFields (ks.zip vs) = vs.flatMap leaves
  | [], [], _ => rfl
  | k :: ks, v :: vs, h => by
    simp only [List.zip_cons_cons, leavesFields, List.flatMap_cons, leavesFields_zip (ks := ks) (vs := vs) (by simpa using h)]

theorem leaves_mkRecord {keys : Option (List String)} {vs : List Val}
    (hk : ∀ ks, keys = some ks → ks.length = vs.length) : (mkRecord keys vs).leaves = vs.flatMap leaves := by
  cases keys with
  | none => simp [mkRecord, leaves, leavesAll_eq]
  | some ks => simp only [mkRecord, leaves]; exact leavesFields_zip (hk ks rfl)

theorem leaves_wrapList (p : Params) (vs : List Val) : (wrapList p vs).leaves = vs.flatMap leaves := by
  unfold wrapList
  split <;> simp [leaves, leavesAll_eq]

end Val

/-- The order of two nested loops does not matter for the collection of the results. -/
theorem flatMap_swap {α β γ : Type} (f : α → β → List γ) (xs : List α) : ∀ ys : List β,
    (xs.flatMap (fun x => ys.flatMap (f x))).Perm (ys.flatMap (fun y => xs.flatMap (fun x => f x y)))
  | [] => by simp
  | y :: ys => by
    simp only [List.flatMap_cons]
    exact (List.flatMap_append_perm xs (fun x => f x y) (fun x => ys.flatMap (f x))).symm.trans
      ((flatMap_swap f xs ys).append_left _)

/-- The elements of a list, sorted into boxes. -/
theorem perm_boxes {α : Type} (g : α → Nat) (l : List α) : ∀ m : Nat,
    (l.filter (fun x => decide (g x < m))).Perm
      ((List.range m).flatMap (fun t => l.filter (fun x => decide (g x = t))))
  | 0 => by simp
  | m + 1 => by
    rw [List.range_succ, List.flatMap_append]
    simp only [List.flatMap_cons, List.flatMap_nil, List.append_nil]
    refine List.Perm.trans ?_ ((perm_boxes g l m).append_right _)
    have h := List.filter_append_perm (fun x => decide (g x < m)) (l.filter (fun x => decide (g x < m + 1)))
    rw [List.filter_filter, List.filter_filter] at h
    refine h.symm.trans (List.Perm.of_eq ?_)
    congr 1
    · refine List.filter_congr (fun x _ => ?_)
      rw [Bool.eq_iff_iff]; simp; omega
    · refine List.filter_congr (fun x _ => ?_)
      rw [Bool.eq_iff_iff]; simp; omega

theorem mapR_exists' {α β : Type} {f : α → R β} {P : α → β → Prop} : ∀ {cs : List α},
    (∀ c ∈ cs, ∃ d, f c = ok d ∧ P c d) → ∃ ds, mapR f cs = ok ds ∧ List.Forall₂ P cs ds
  | [], _ => ⟨[], rfl, .nil⟩
  | c :: cs, h => by
    obtain ⟨d, h1, h2⟩ := h c (by simp)
    obtain ⟨ds, h3, h4⟩ := mapR_exists' (cs := cs) (fun c hc => h c (by simp [hc]))
    exact ⟨d :: ds, by simp [mapR, h1, h3], .cons h2 h4⟩

namespace Content

/-- All numbers of an array. -/
def leavesOf (c : Content) : List Atom := (List.range c.len).flatMap (fun i => (c.valD i).leaves)

theorem leavesOf_toList {c : Content} (h : c.Good) {vs : List Val} (hv : c.toList = ok vs) :
    c.leavesOf = vs.flatMap Val.leaves := by
  rw [h.toList] at hv
  simp only [ok.injEq] at hv; subst hv
  simp [leavesOf, List.flatMap_map]

/-- The predicate is kept by gathering elements. -/
def Kept (Q : Content → Prop) : Prop := ClosedG True (fun (_ : Unit) => AllNodes Q)

theorem kept_of {Q : Content → Prop} (hl : ∀ idx c, c.cls = 4 → Q c → Q (indexed {} idx c))
    (hn : ∀ c' c : Content, c'.cls = c.cls → Local True c' c → Q c → Q c') : Kept Q where
  lazy := by
    intro a idx c h1 h2
    exact .mk (hl idx c h1 (allNodes_iff.mp h2).1) (by simpa [children] using h2)
  node := by
    intro c' c h1 h2 h3 a h4
    obtain ⟨h5, h6⟩ := allNodes_iff.mp h4
    refine .mk (hn c' c h1 h2 h5) (fun d' hd' => ?_)
    obtain ⟨d, hd, he⟩ := h3 d' hd'
    exact he () (h6 d hd)

theorem TrimNode.kept : Kept TrimNode := kept_of (fun _ _ _ _ => trivial) (by
  intro c' c h1 h2 h3
  cases c' <;> try trivial
  case record p k cs n =>
    refine ⟨h2.trim _ _ _ _ rfl, fun ks hk => ?_⟩
    obtain ⟨p', cs', n', rfl⟩ := h2.keys _ _ _ _ rfl
    have := h2.width
    simp only [children] at this
    rw [h3.2 ks hk, this])

theorem SingleNode.kept : Kept SingleNode := kept_of
  (fun idx c h1 h2 => by cases c <;> simp [cls] at h1; exact h2.elim)
  (fun c' c h1 _ h3 => by cases c <;> cases c' <;> simp_all [cls, SingleNode])

theorem FullNode.kept : Kept FullNode := kept_of (fun _ _ _ _ => trivial) (by
  intro c' c h1 h2 h3
  have hw := h2.width
  cases c' <;> try trivial
  case record p k cs n =>
    cases c <;> simp [cls] at h1
    simp only [children] at hw
    intro h; subst h
    exact h3 (List.length_eq_zero_iff.mp hw.symm)
  case union p t i cs =>
    cases c <;> simp [cls] at h1
    simp only [children] at hw
    intro h; subst h
    exact h3 (List.length_eq_zero_iff.mp hw.symm))

/-- What one step of `completely_flatten` does to a node with one content. -/
structure Step (c d : Content) : Prop where
  good : d.Good
  rank : d.rank + 1 ≤ c.rank
  leaves : d.leavesOf = c.leavesOf
  nodes : ∀ Q, Kept Q → AllNodes Q c → AllNodes Q d

theorem flat_indexed {p : Params} {index : List Int} {c : Content} (h : (indexed p index c).Good) :
    ∃ d, (indexed p index c).project = ok d ∧ Step (indexed p index c) d := by
  obtain ⟨d, h1, h2, h3, h4, h5, h6⟩ := project_indexed h
  refine ⟨d, h1, h2, by simp only [Content.rank]; omega, ?_, fun Q hQ hc => ?_⟩
  · unfold leavesOf
    rw [h4]
    show _ = (List.range index.length).flatMap _
    refine List.flatMap_congr (fun i hi => ?_)
    rw [h5 i (List.mem_range.mp hi)]
  · exact Gathered.closed hQ (h.child (by simp [children])) h6 () (all_indexed.mp hc).2

theorem flat_option {c : Content} (h : c.Good) (ho : c.isOption = true) :
    ∃ d, c.project = ok d ∧ Step c d := by
  have hr : ∀ i, i < c.len → IsOk (c.val i) := fun i hi => ⟨_, h.val hi⟩
  obtain ⟨d, h1, h2, h3⟩ := project_good h ho
  have hl : d.leavesOf = c.leavesOf := by
    rw [leavesOf_toList h2 h3]
    unfold leavesOf
    have hnull : ∀ i, i < c.len → (c.pick i).isSome = false → (c.valD i).leaves = [] := by
      intro i hi hp
      have := (val_pick h.wf (isOption_imp ho) hi (h.val hi)).1
      rw [Option.isSome_eq_false_iff, Option.isNone_iff_eq_none] at hp
      rw [hp] at this
      simp only [pickVal, ok.injEq] at this
      rw [← this]; rfl
    have : ∀ l : List Nat, (∀ i ∈ l, i < c.len) →
        (l.filterMap (fun i => if (c.pick i).isSome then some (c.valD i) else none)).flatMap Val.leaves
          = l.flatMap (fun i => (c.valD i).leaves) := by
      intro l hl
      induction l with
      | nil => rfl
      | cons i l ih =>
        have ih := ih (fun j hj => hl j (by simp [hj]))
        cases hp : (c.pick i).isSome with
        | true => simp [List.filterMap_cons, hp, ih]
        | false => simp [List.filterMap_cons, hp, ih, hnull i (hl i (by simp)) hp]
    exact this _ (fun i hi => List.mem_range.mp hi)
  have hrk := inner_rank (isOption_imp ho)
  rcases project_eq h.wf ho hr with ⟨p, e, rfl⟩ | heq
  · rw [show (unmasked p e).project = ok e from rfl, ok.injEq] at h1
    subst h1
    exact ⟨_, rfl, h2, hrk, hl, fun Q hQ hc => (all_unmasked.mp hc).2⟩
  · obtain ⟨d', g1, g2, g3, g4⟩ := carry_good (h.child (inner_mem ho)) false (shown_inRange h.wf ho hr)
    have : d' = d := by
      rw [heq, g1, ok.injEq] at h1; exact h1
    subst this
    refine ⟨d', h1, h2, by simp at g3; omega, hl, fun Q hQ hc => ?_⟩
    exact carry_closed hQ (h.child (inner_mem ho)) (shown_inRange h.wf ho hr) g1 ()
      ((allNodes_iff.mp hc).2 _ (inner_mem ho))

theorem flat_list {c : Content} (h : c.Good) (hl : c.isListNode = true) :
    ∃ d, c.flatten = ok d ∧ Step c d := by
  obtain ⟨offs, c', h1, h2, h3⟩ := listParts_ok h hl
  obtain ⟨d, g1, g2, g3, g4, _⟩ := range_good h2.good (a := 0) (b := sumTo c.lens c.len) (by omega) h2.bound
  have hf : c.flatten = ok d := by
    have hk : c.rank = (c.rank - 1) + 1 := by omega
    have h1' : rd offs ((offs.length - 1 : Nat) : Int) = ok (sumTo c.lens c.len : Int) := by
      rw [h2.offs_eq]; exact rd_offsTo_last
    have g1' : c'.range 0 (sumTo c.lens c.len : Int) = ok d := g1
    have : ∀ f, flattenF (f + 1) c = ok (offs, d) := by
      intro f
      cases c <;> simp only [isListNode, Bool.false_eq_true] at hl <;>
        simp only [flattenF, h1, bind_ok, h1', g1']
    unfold flatten
    rw [hk, this]; rfl
  refine ⟨d, hf, g2, by omega, ?_, fun Q hQ hc => ?_⟩
  · unfold leavesOf
    rw [g4.1, Nat.sub_zero]
    have hd : (List.range (sumTo c.lens c.len)).flatMap (fun i => (d.valD i).leaves)
        = (List.range (sumTo c.lens c.len)).flatMap (fun i => (c'.valD i).leaves) :=
      List.flatMap_congr (fun i hi => by
        rw [g4.valD (by simpa using hi)]; simp)
    rw [hd]
    have hs : ∀ n, (List.range (sumTo c.lens n)).flatMap (fun i => (c'.valD i).leaves)
        = (List.range n).flatMap (fun i => (c'.seg (sumTo c.lens i) (c.lens i)).flatMap Val.leaves) := by
      intro n
      induction n with
      | zero => rfl
      | succ n ih =>
        rw [List.range_succ, List.flatMap_append, ← ih, sumTo_succ, List.range_add, List.flatMap_append]
        simp [seg, List.flatMap_map]
    rw [hs]
    refine List.flatMap_congr (fun i hi => ?_)
    rw [h2.vals i (List.mem_range.mp hi), Val.leaves_wrapList]
  · obtain ⟨e, he1, he2⟩ := h2.src
    have he := Gathered.closed hQ (h.child he1) he2 () ((allNodes_iff.mp hc).2 _ he1)
    exact range_closedG hQ h2.good (fun _ => rfl) (by omega) h2.bound g1 () he

/-- `project` of a union: the elements of one alternative. -/
theorem unionProject_ok {p : Params} {tags index : List Int} {cs : List Content}
    (h : (union p tags index cs).Good) {t : Nat} (ht : t < cs.length) :
    ∃ d, unionProject tags index cs t = ok d ∧ d.Good ∧ d.rank ≤ cs[t].rank ∧
      d.leavesOf = ((List.range tags.length).filter (fun i => decide ((tags[i]?.getD 0).toNat = t))).flatMap
        (fun i => ((union p tags index cs).valD i).leaves) ∧
      ∀ Q, Kept Q → AllNodes Q cs[t] → AllNodes Q d := by
  obtain ⟨hl, hc, hp⟩ := good_union.mp h
  have hg := hc cs[t] (List.getElem_mem ht)
  let q : Nat → Option Int := fun i => if tags[i]?.getD 0 = (t : Int) then some (index[i]?.getD 0) else none
  have hk : UnionArray_project (alloc tags.length) tags index tags.length t
      = ok (((List.range tags.length).filterMap q).length, (List.range tags.length).filterMap q
        ++ (alloc tags.length).drop ((List.range tags.length).filterMap q).length) := by
    unfold UnionArray_project
    refine forN_push_eq q ?_ (fun i hi => ?_)
    · rw [alloc_length]
      simpa using List.length_filterMap_le q (List.range tags.length)
    · rw [rd_nat_ok hi, bind_ok]
      simp only [q, List.getElem?_eq_getElem hi, Option.getD_some,
        List.getElem?_eq_getElem (show i < index.length by omega)]
      split
      · rw [rd_nat_ok (show i < index.length by omega), bind_ok]
      · rfl
  have hin : InRange ((List.range tags.length).filterMap q) cs[t].len := by
    intro j hj
    obtain ⟨i, hi, he⟩ := List.mem_filterMap.mp hj
    have hi : i < tags.length := List.mem_range.mp hi
    obtain ⟨p1, p2, p3, p4⟩ := hp i hi
    simp only [q, List.getElem?_eq_getElem hi, Option.getD_some,
        List.getElem?_eq_getElem (show i < index.length by omega)] at he
    split at he
    · rename_i he'
      simp only [Option.some.injEq] at he
      subst he
      simp only [he', Int.toNat_natCast] at p4
      exact ⟨p3, p4⟩
    · cases he
  obtain ⟨d, g1, g2, g3, g4⟩ := carry_good hg false hin
  refine ⟨d, ?_, g2, by simpa using g3, ?_, fun Q hQ hc => carry_closed hQ hg hin g1 () hc⟩
  · unfold unionProject
    rw [List.getElem?_eq_getElem ht]
    simp only
    rw [if_neg (by omega), hk, bind_ok]
    simp only
    rw [show ((0 : Int) = ((0 : Nat) : Int)) from rfl, idxRange_ok (by omega) (by simp), bind_ok]
    simpa using g1
  · rw [leavesOf_toList g2 (g4.toList (fun j hj => by
      obtain ⟨h1, h2⟩ := hin j hj
      exact ⟨_, hg.val (by omega)⟩))]
    rw [List.flatMap_map]
    have : ∀ l : List Nat, (∀ i ∈ l, i < tags.length) →
        (l.filterMap q).flatMap (fun j => (cs[t].valD j.toNat).leaves)
          = (l.filter (fun i => decide ((tags[i]?.getD 0).toNat = t))).flatMap
            (fun i => ((union p tags index cs).valD i).leaves) := by
      intro l hl'
      induction l with
      | nil => rfl
      | cons i l ih =>
        have ih := ih (fun j hj => hl' j (by simp [hj]))
        have hi := hl' i (by simp)
        obtain ⟨p1, p2, p3, p4⟩ := hp i hi
        have hq : q i = if tags[i] = (t : Int) then some index[i] else none := by
          simp only [q, List.getElem?_eq_getElem hi, Option.getD_some,
            List.getElem?_eq_getElem (show i < index.length by omega)]
        by_cases he : tags[i] = (t : Int)
        · have hv := valD_union h hi (by omega) p2
          simp only [he, Int.toNat_natCast] at hv
          rw [List.filterMap_cons, hq, if_pos he, List.filter_cons_of_pos (by simp [hi, he])]
          simp only [List.flatMap_cons, hv, ih]
        · rw [List.filterMap_cons, hq, if_neg he, List.filter_cons_of_neg (by simp [hi]; omega)]
          exact ih
    exact this _ (fun i hi => List.mem_range.mp hi)

/-- `completely_flatten` of an array that can be read. -/
theorem allParts_ok : ∀ (f : Nat) (c : Content), c.Good → c.rank ≤ f → AllNodes TrimNode c →
    ∃ parts, allParts f c = ok parts ∧ parts.flatten.Perm c.leavesOf ∧
      (AllNodes SingleNode c → ∃ part, parts = [part] ∧ part = c.leavesOf) ∧
      (AllNodes FullNode c → parts ≠ [])
  | 0, c, _, hr, _ => by exfalso; cases c <;> simp [rank] at hr
  | f + 1, c, hg, hr, ht => by
    have next : ∀ d, Step c d → allParts (f + 1) c = allParts f d →
        ∃ parts, allParts (f + 1) c = ok parts ∧ parts.flatten.Perm c.leavesOf ∧
          (AllNodes SingleNode c → ∃ part, parts = [part] ∧ part = c.leavesOf) ∧
          (AllNodes FullNode c → parts ≠ []) := by
      intro d hs he
      obtain ⟨parts, h1, h2, h3, h4⟩ := allParts_ok f d hs.good (by have := hs.rank; omega)
        (hs.nodes _ TrimNode.kept ht)
      refine ⟨parts, he.trans h1, hs.leaves ▸ h2, fun h => ?_, fun h => h4 (hs.nodes _ FullNode.kept h)⟩
      rw [← hs.leaves]; exact h3 (hs.nodes _ SingleNode.kept h)
    have option : c.isOption = true → allParts (f + 1) c = (c.project >>= fun d => allParts f d) →
        ∃ parts, allParts (f + 1) c = ok parts ∧ parts.flatten.Perm c.leavesOf ∧
          (AllNodes SingleNode c → ∃ part, parts = [part] ∧ part = c.leavesOf) ∧
          (AllNodes FullNode c → parts ≠ []) := by
      intro ho he
      obtain ⟨d, h1, h2⟩ := flat_option hg ho
      exact next d h2 (by rw [he, h1]; rfl)
    have list : c.isListNode = true → allParts (f + 1) c = (c.flatten >>= fun d => allParts f d) →
        ∃ parts, allParts (f + 1) c = ok parts ∧ parts.flatten.Perm c.leavesOf ∧
          (AllNodes SingleNode c → ∃ part, parts = [part] ∧ part = c.leavesOf) ∧
          (AllNodes FullNode c → parts ≠ []) := by
      intro ho he
      obtain ⟨d, h1, h2⟩ := flat_list hg ho
      exact next d h2 (by rw [he, h1]; rfl)
    cases c with
    | empty p => exact ⟨[[]], rfl, by simp [leavesOf, len], fun _ => ⟨[], rfl, rfl⟩, fun _ => by simp⟩
    | numpy p dt data =>
      have : (numpy p dt data).leavesOf = data := by
        rw [leavesOf_toList hg (vs := data.map Val.atom) (by
          rw [hg.toList]
          congr 1
          apply List.ext_getElem
          · simp [len]
          · intro i h1 h2
            have hi : i < data.length := by simpa using h2
            simp [valD_numpy hi])]
        simp [List.flatMap_map, Val.leaves]
      exact ⟨[data], rfl, by simp [this], fun _ => ⟨data, rfl, this.symm⟩, fun _ => by simp⟩
    | indexed p index d =>
      obtain ⟨d', h1, h2⟩ := flat_indexed hg
      exact next d' h2 (by simp only [allParts, h1, bind_ok])
    | indexedOption p index d => exact option rfl rfl
    | byteMasked p mask vw d => exact option rfl rfl
    | bitMasked p mask vw n lsb d => exact option rfl rfl
    | unmasked p d => exact option rfl rfl
    | regular p d size zeros => exact list rfl rfl
    | listArray p starts stops d => exact list rfl rfl
    | listOffset p offsets d => exact list rfl rfl
    | record p keys ds n =>
      obtain ⟨⟨ht1, ht2⟩, ht3⟩ := all_record.mp ht
      obtain ⟨hl, hc⟩ := good_record.mp hg
      obtain ⟨parts, h1, h2⟩ := mapR_exists' (f := fun d => allParts f d) (cs := ds)
        (P := fun d parts => parts.flatten.Perm d.leavesOf ∧ (AllNodes FullNode d → parts ≠ [])) (by
          intro d hd
          obtain ⟨ps, g1, g2, _, g4⟩ := allParts_ok f d (hc d hd) (by
            have := rank_le_rankAll hd
            simp only [rank] at hr; omega) (ht3 d hd)
          exact ⟨ps, g1, g2, g4⟩)
      refine ⟨parts.flatten, by simp only [allParts, h1, bind_ok], ?_, fun h => ((all_record.mp h).1).elim,
        fun h => ?_⟩
      · have hp : (parts.flatten.flatten).Perm (ds.flatMap leavesOf) := by
          clear h1 hl hc ht1 ht2 ht3 hg ht hr next option list
          induction h2 with
          | nil => simp
          | cons h _ ih => simpa using h.1.append ih
        refine hp.trans ?_
        have e1 : (record p keys ds n).leavesOf
            = (List.range n).flatMap (fun i => ds.flatMap (fun d => (d.valD i).leaves)) := by
          refine List.flatMap_congr (fun i hi => ?_)
          rw [valD_record hg (List.mem_range.mp hi), Val.leaves_mkRecord (by simpa using ht2), List.flatMap_map]
        rw [e1]
        refine List.Perm.trans (List.Perm.of_eq ?_) (flatMap_swap (fun i d => (Content.valD d i).leaves) (List.range n) ds).symm
        refine List.flatMap_congr (fun d hd => ?_)
        unfold leavesOf
        rw [ht1 d hd]
      · obtain ⟨hf, hfs⟩ := all_record.mp h
        match ds, parts, h2 with
        | d :: ds, q :: parts, .cons h _ =>
          have := h.2 (hfs d (by simp))
          simp only [List.flatten_cons]
          intro he
          exact this (List.append_eq_nil_iff.mp he).1
        | [], _, _ => exact absurd rfl hf
    | union p tags index cs =>
      obtain ⟨_, ht3⟩ := all_union.mp ht
      obtain ⟨hl, hc, hp⟩ := good_union.mp hg
      obtain ⟨parts, h1, h2⟩ := mapR_exists' (f := fun i => unionProject tags index cs i >>= fun d => allParts f d)
        (cs := List.range cs.length)
        (P := fun t parts => parts.flatten.Perm (((List.range tags.length).filter
          (fun i => decide ((tags[i]?.getD 0).toNat = t))).flatMap
            (fun i => ((union p tags index cs).valD i).leaves)) ∧
            (AllNodes FullNode (union p tags index cs) → parts ≠ [])) (by
          intro t htt
          have htt := List.mem_range.mp htt
          obtain ⟨d, u1, u2, u3, u4, u5⟩ := unionProject_ok hg htt
          obtain ⟨ps, g1, g2, _, g4⟩ := allParts_ok f d u2 (by
            have := rank_le_rankAll (List.getElem_mem htt)
            simp only [rank] at hr; omega) (u5 _ TrimNode.kept (ht3 _ (List.getElem_mem htt)))
          refine ⟨ps, by rw [u1]; exact g1, u4 ▸ g2, fun h => g4 (u5 _ FullNode.kept
            ((all_union.mp h).2 _ (List.getElem_mem htt)))⟩)
      refine ⟨parts.flatten, by simp only [allParts, h1, bind_ok], ?_, fun h => ((all_union.mp h).1).elim,
        fun h => ?_⟩
      · have hpp : (parts.flatten.flatten).Perm ((List.range cs.length).flatMap (fun t =>
            ((List.range tags.length).filter (fun i => decide ((tags[i]?.getD 0).toNat = t))).flatMap
            (fun i => ((union p tags index cs).valD i).leaves))) := by
          clear h1
          generalize List.range cs.length = ts at h2
          induction h2 with
          | nil => simp
          | cons h _ ih => simpa using h.1.append ih
        refine hpp.trans ?_
        rw [← List.flatMap_assoc]
        have hb := perm_boxes (fun i => (tags[i]?.getD 0).toNat) (List.range tags.length) cs.length
        rw [List.filter_eq_self.mpr (by
          intro i hi
          have hi := List.mem_range.mp hi
          obtain ⟨_, p2, _⟩ := hp i hi
          simpa [hi] using p2)] at hb
        exact (hb.flatMap_right _).symm
      · obtain ⟨hf, _⟩ := all_union.mp h
        obtain ⟨m, hm⟩ : ∃ m, cs.length = m + 1 := ⟨cs.length - 1, by
          have := List.length_pos_iff.mpr hf; omega⟩
        rw [hm, List.range_succ_eq_map] at h2
        match parts, h2 with
        | q :: parts, .cons h' _ =>
          have := h'.2 h
          simp only [List.flatten_cons]
          intro he
          exact this (List.append_eq_nil_iff.mp he).1

/-! ### Reducing the parts -/

/-- Folding the parts and then their results is folding the whole list. -/
theorem reduceParts_fold {β : Type} {op : β → β → β} {e : β} (g : Atom → β)
    (ha : ∀ a b c, op (op a b) c = op a (op b c)) (hl : ∀ a, op e a = a) (hr : ∀ a, op a e = a) :
    ∀ parts : List (List Atom), parts ≠ [] →
      reduceParts op (parts.map (fun l => l.foldr (fun x r => op (g x) r) e))
        = ok (parts.flatten.foldr (fun x r => op (g x) r) e)
  | [], h => absurd rfl h
  | [x], _ => by simp [reduceParts]
  | x :: y :: xs, _ => by
    have hap : ∀ (l m : List Atom), (l ++ m).foldr (fun x r => op (g x) r) e
        = op (l.foldr (fun x r => op (g x) r) e) (m.foldr (fun x r => op (g x) r) e) := by
      intro l m
      induction l with
      | nil => simp [hl]
      | cons a l ih => simp only [List.cons_append, List.foldr_cons, ih, ha]
    have := reduceParts_fold g ha hl hr (y :: xs) (by simp)
    simp only [List.map_cons] at this ⊢
    rw [reduceParts, this, bind_ok, List.flatten_cons (l := x), hap]

theorem npMin_spec {lt : Atom → Atom → Bool} {S : Atom → Prop} (h : StrictWeak lt S) :
    ∀ (xs : List Atom) (m : Atom), S m → (∀ x ∈ xs, S x) →
      npMin lt m xs ∈ m :: xs ∧ ∀ y ∈ m :: xs, lt y (npMin lt m xs) = false
  | [], m, hm, _ => by
    refine ⟨by simp [npMin], fun y hy => ?_⟩
    simp only [List.mem_singleton] at hy; subst hy
    cases hl : lt y y with
    | false => simpa [npMin] using hl
    | true => have := h.asymm y y hm hm hl; rw [hl] at this; cases this
  | x :: xs, m, hm, hx => by
    have hSx := hx x (by simp)
    cases hl : lt x m with
    | true =>
      obtain ⟨h1, h2⟩ := npMin_spec h xs x hSx (fun y hy => hx y (by simp [hy]))
      have hmem : ∀ y ∈ x :: xs, S y := hx
      simp only [npMin, hl, if_true]
      refine ⟨by simp only [List.mem_cons] at h1 ⊢; tauto, fun y hy => ?_⟩
      rcases List.mem_cons.mp hy with rfl | hy
      · exact h.neg _ x _ hm hSx (hmem _ h1) (h.asymm _ _ hSx hm hl) (h2 x (by simp))
      · exact h2 y hy
    | false =>
      obtain ⟨h1, h2⟩ := npMin_spec h xs m hm (fun y hy => hx y (by simp [hy]))
      have hmem : ∀ y ∈ m :: xs, S y := by
        intro y hy
        rcases List.mem_cons.mp hy with rfl | hy
        · exact hm
        · exact hx y (by simp [hy])
      simp only [npMin, hl, Bool.false_eq_true, if_false]
      refine ⟨by simp only [List.mem_cons] at h1 ⊢; tauto, fun y hy => ?_⟩
      rcases List.mem_cons.mp hy with rfl | hy
      · exact h2 _ (by simp)
      rcases List.mem_cons.mp hy with rfl | hy
      · exact h.neg _ m _ hSx hm (hmem _ h1) hl (h2 m (by simp))
      · exact h2 y (by simp [hy])

/-- The reduction of minima is a minimum. -/
theorem reduceMin_spec {lt : Atom → Atom → Bool} {S : Atom → Prop} (h : StrictWeak lt S) :
    ∀ (xs : List Atom), (∀ x ∈ xs, S x) → (reduceMin lt xs = none ↔ xs = []) ∧
      ∀ m, reduceMin lt xs = some m → m ∈ xs ∧ ∀ y ∈ xs, lt y m = false
  | [], _ => ⟨by simp [reduceMin], by simp [reduceMin]⟩
  | x :: xs, hx => by
    obtain ⟨h1, h2⟩ := reduceMin_spec h xs (fun y hy => hx y (by simp [hy]))
    have hSx := hx x (by simp)
    have hxx : lt x x = false := by
      cases hl : lt x x with
      | false => rfl
      | true => have := h.asymm x x hSx hSx hl; rw [hl] at this; cases this
    cases hr : reduceMin lt xs with
    | none =>
      have := h1.mp hr; subst this
      simp [reduceMin, hxx]
    | some y =>
      obtain ⟨g1, g2⟩ := h2 y hr
      have hSy := hx y (by simp [g1])
      simp only [reduceMin, hr]
      refine ⟨by simp, fun m hm => ?_⟩
      simp only [Option.some.injEq] at hm
      cases hl : lt x y with
      | true =>
        simp only [hl, if_true] at hm; subst hm
        refine ⟨by simp, fun z hz => ?_⟩
        rcases List.mem_cons.mp hz with rfl | hz
        · exact hxx
        · exact h.neg z y _ (hx z (by simp [hz])) hSy hSx (g2 z hz) (h.asymm _ _ hSx hSy hl)
      | false =>
        simp only [hl, Bool.false_eq_true, if_false] at hm; subst hm
        refine ⟨by simp [g1], fun z hz => ?_⟩
        rcases List.mem_cons.mp hz with rfl | hz
        · exact hl
        · exact g2 z hz

/-- The minimum of each part that is not empty. -/
def minOf (lt : Atom → Atom → Bool) : List Atom → Option Atom
  | [] => none
  | x :: xs => some (npMin lt x xs)

theorem minAll_eq {lt : Atom → Atom → Bool} {i : Option Atom} {c : Content} {parts : List (List Atom)}
    (h : allParts c.rank c = ok parts) : minAll lt i c = ok (reduceMin lt (parts.filterMap (minOf lt))) := by
  unfold minAll
  rw [h, bind_ok]
  congr 2

theorem minParts_spec {lt : Atom → Atom → Bool} {S : Atom → Prop} (h : StrictWeak lt S) (parts : List (List Atom))
    (hS : ∀ x ∈ parts.flatten, S x) : (reduceMin lt (parts.filterMap (minOf lt)) = none ↔ parts.flatten = []) ∧
      ∀ m, reduceMin lt (parts.filterMap (minOf lt)) = some m →
        m ∈ parts.flatten ∧ ∀ y ∈ parts.flatten, lt y m = false := by
  have hm : ∀ m ∈ parts.filterMap (minOf lt), ∃ part ∈ parts, m ∈ part ∧ ∀ y ∈ part, lt y m = false := by
    intro m hm
    obtain ⟨part, h1, h2⟩ := List.mem_filterMap.mp hm
    cases part with
    | nil => cases h2
    | cons x xs =>
      simp only [minOf, Option.some.injEq] at h2; subst h2
      have hs : ∀ y ∈ x :: xs, S y := fun y hy => hS y (List.mem_flatten.mpr ⟨_, h1, hy⟩)
      obtain ⟨h3, h4⟩ := npMin_spec h xs x (hs x (by simp)) (fun y hy => hs y (by simp [hy]))
      exact ⟨_, h1, h3, h4⟩
  have hmS : ∀ m ∈ parts.filterMap (minOf lt), S m := by
    intro m h1
    obtain ⟨part, h2, h3, _⟩ := hm m h1
    exact hS m (List.mem_flatten.mpr ⟨_, h2, h3⟩)
  obtain ⟨h1, h2⟩ := reduceMin_spec h _ hmS
  constructor
  · rw [h1]
    constructor
    · intro he
      rw [List.flatten_eq_nil_iff]
      intro part hp
      cases part with
      | nil => rfl
      | cons x xs =>
        have : npMin lt x xs ∈ parts.filterMap (minOf lt) := List.mem_filterMap.mpr ⟨_, hp, rfl⟩
        rw [he] at this; cases this
    · intro he
      rw [List.flatten_eq_nil_iff] at he
      rw [List.filterMap_eq_nil_iff]
      intro part hp
      rw [he part hp]; rfl
  · intro m he
    obtain ⟨g1, g2⟩ := h2 m he
    obtain ⟨part, p1, p2, p3⟩ := hm m g1
    refine ⟨List.mem_flatten.mpr ⟨_, p1, p2⟩, fun y hy => ?_⟩
    obtain ⟨q, q1, q2⟩ := List.mem_flatten.mp hy
    cases q with
    | nil => cases q2
    | cons x xs =>
      have hq : npMin lt x xs ∈ parts.filterMap (minOf lt) := List.mem_filterMap.mpr ⟨_, q1, rfl⟩
      have hs : ∀ y ∈ x :: xs, S y := fun y hy => hS y (List.mem_flatten.mpr ⟨_, q1, hy⟩)
      obtain ⟨h3, h4⟩ := npMin_spec h xs x (hs x (by simp)) (fun y hy => hs y (by simp [hy]))
      exact h.neg y _ m (hs y q2) (hmS _ hq) (hmS m g1) (h4 y q2) (g2 _ hq)

/-- The position found by `argmin` is the first of the least numbers. -/
theorem npArgmin_spec {lt : Atom → Atom → Bool} {S : Atom → Prop} (h : StrictWeak lt S) :
    ∀ (xs pre : List Atom) (m : Atom) (at_ : Nat), (∀ x ∈ pre ++ xs, S x) →
      pre[at_]? = some m → (∀ y ∈ pre, lt y m = false) → (∀ j y, j < at_ → pre[j]? = some y → lt m y = true) →
      ∃ k v, npArgmin lt m at_ pre.length xs = (k, v) ∧ (pre ++ xs)[k]? = some v ∧
        (∀ y ∈ pre ++ xs, lt y v = false) ∧ ∀ j y, j < k → (pre ++ xs)[j]? = some y → lt v y = true
  | [], pre, m, at_, _, h1, h2, h3 => ⟨at_, m, rfl, by simpa using h1, by simpa using h2, by simpa using h3⟩
  | x :: xs, pre, m, at_, hS, h1, h2, h3 => by
    have hat : at_ < pre.length := (List.getElem?_eq_some_iff.mp h1).1
    have hSm : S m := hS m (List.mem_append_left _ (List.mem_of_getElem? h1))
    have hSx : S x := hS x (by simp)
    have hSp : ∀ y ∈ pre, S y := fun y hy => hS y (by simp [hy])
    have he : pre ++ x :: xs = (pre ++ [x]) ++ xs := by simp
    have hxx : lt x x = false := by
      cases hl : lt x x with
      | false => rfl
      | true => have := h.asymm x x hSx hSx hl; rw [hl] at this; cases this
    have hlen : pre.length + 1 = (pre ++ [x]).length := by simp
    cases hl : lt x m with
    | true =>
      have hmx := h.asymm _ _ hSx hSm hl
      have := npArgmin_spec h xs (pre ++ [x]) x pre.length (by rw [← he]; exact hS) (by simp) (by
          intro y hy
          rcases List.mem_append.mp hy with hy | hy
          · exact h.neg y m x (hSp y hy) hSm hSx (h2 y hy) hmx
          · simp only [List.mem_singleton] at hy; subst hy; exact hxx) (by
          intro j y hj hy
          rw [List.getElem?_append_left hj] at hy
          have hSy := hSp y (List.mem_of_getElem? hy)
          cases hxy : lt x y with
          | true => rfl
          | false =>
            have := h.neg x y m hSx hSy hSm hxy (h2 y (List.mem_of_getElem? hy))
            rw [hl] at this; cases this)
      simp only [npArgmin, hl, if_true]
      rw [he, hlen]; exact this
    | false =>
      have := npArgmin_spec h xs (pre ++ [x]) m at_ (by rw [← he]; exact hS)
        (by rw [List.getElem?_append_left hat]; exact h1) (by
          intro y hy
          rcases List.mem_append.mp hy with hy | hy
          · exact h2 y hy
          · simp only [List.mem_singleton] at hy; subst hy; exact hl) (by
          intro j y hj hy
          rw [List.getElem?_append_left (by omega)] at hy
          exact h3 j y hj hy)
      simp only [npArgmin, hl, Bool.false_eq_true, if_false]
      rw [he, hlen]; exact this

end Content
end Awk
