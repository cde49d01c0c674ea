import Verif.Lemmas.ReduceOption
/-
Reducing the innermost dimension, for any assignment of the items to groups.
-/

namespace Awk
open R

/-- A number with its position, if the item is not missing. -/
def atomAt (x : Nat × Val) : Option (Nat × Atom) := match x.2 with
  | .atom a => some (x.1, a)
  | _ => none

theorem grp_filterMap_atom {g pos : Nat → Nat} {v : Nat → Val} {a : Nat → Atom} {n p : Nat}
    (h : ∀ i, i < n → v i = .atom (a i)) :
    (grp g (fun j => (pos j, v j)) n p).filterMap atomAt = grp g (fun j => (pos j, a j)) n p := by
  unfold grp
  rw [List.filterMap_map, ← List.filterMap_eq_map]
  apply List.filterMap_congr
  intro i hi
  have := h i (List.mem_range.mp (List.mem_filter.mp hi).1)
  simp [Function.comp, atomAt, this]

theorem grp_filterMap_kept {q : Nat → Option Int} {g : Nat → Nat} {v : Nat → α} {f : α → Option β}
    {n p : Nat} (h : ∀ i, i < n → q i = none → f (v i) = none) :
    (grp (fun j => g (keptAt q n j)) (fun j => v (keptAt q n j)) (cnt q n) p).filterMap f
      = (grp g v n p).filterMap f := by
  rw [grp_kept]
  unfold grp
  rw [List.filterMap_map, List.filterMap_map, List.filterMap_filter]
  apply List.filterMap_congr
  intro i hi
  have hi := List.mem_range.mp (List.mem_filter.mp hi).1
  cases hq : q i with
  | none => simp [Function.comp, h i hi hq]
  | some x => simp

namespace Content
open Spec (Nested)

variable {red : Reducer} {dt : DType} {z ix rg : Prop} {k : Nat} {mask : Bool}

/-- The lists of this node are not shown as text, and other nodes do not hold lists. -/
def PlainItems : Content → Prop
  | regular _ c _ _ | listArray _ _ _ c | listOffset _ _ c => c.params = {}
  | c => ∀ i, i < c.len → (c.valD i).isList = false

theorem plainItems_leaf {o : Content} (h : o.isListNode = false)
    (hv : ∀ i, i < o.len → (o.valD i).isList = false) : PlainItems o := by
  cases o <;> simp only [isListNode, Bool.true_eq_false] at h <;> exact hv

theorem reduceList_isList (vals : List Val) : (Spec.reduceList red mask dt vals).isList = false := by
  unfold Spec.reduceList
  cases red <;> simp only <;> split <;> first | rfl | (split <;> rfl)

/-- What the reduction of a dimension produces. -/
structure Reduced (o : Content) (out : Nat) (F : Nat → Val) : Prop where
  len : o.len = out
  good : o.Good
  params : o.params = {}
  val : ∀ p, p < out → o.valD p = F p
  offs : OffsetsInRange o
  plain : PlainItems o

theorem offsetsInRange_of_not_list {o : Content} (h : o.isListNode = false) : OffsetsInRange o := by
  cases o <;> simp only [isListNode, Bool.true_eq_false] at h <;> trivial

theorem base_leaf {c : Content} {fuel : Nat} {g pos : Nat → Nat} {V : Nat → List Val} {out : Nat}
    {starts shifts : List Int} (hn : Nested red dt z ix rg k 1 false c) (hf : c.rank ≤ fuel)
    (hid : red.identityOk dt) (hg : ∀ i, i < c.len → g i < out)
    (hV : ∀ p, p < out → (grp g (fun j => (pos j, c.valD j)) c.len p).filterMap atomAt = ipresent (V p))
    (hpos : red.returnsPositions = true → out ≤ starts.length ∧
      (shifts.length = 0 ∨ shifts.length = c.len) ∧
      ∀ j, j < c.len → (j : Int) + (shiftAt shifts j - starts[g j]?.getD 0) = (pos j : Int)) :
    ∃ o, reduceNext red mask fuel 1 starts shifts (nats g c.len) out c = ok o ∧
      Reduced o out (fun p => Spec.reduceList red mask dt (V p)) := by
  obtain ⟨f, rfl⟩ : ∃ f, fuel = f + 1 := ⟨fuel - 1, by cases c <;> simp only [rank] at hf <;> omega⟩
  cases hn with
  | numpy h1 h2 =>
    rename_i p data
    simp only [len] at hg hV hpos ⊢
    have hd : data = (List.range data.length).map (fun i => data[i]?.getD (.int 0)) := by
      apply List.ext_getElem (by simp)
      intro i h1 h2; simp [h1]
    obtain ⟨o, g1, g2, g3, g4, g5, g6⟩ := reduceLeaf_ok (red := red) (mask := mask) (starts := starts)
      (shifts := shifts) (dt := dt) (g := g) (pos := pos) (data := fun i => data[i]?.getD (.int 0))
      (n := data.length) (out := out) (V := V) h1 hid hg (by
        intro i hi
        simp only [List.getElem?_eq_getElem hi, Option.getD_some]
        exact h2 _ (List.getElem_mem hi)) (by
        intro p' hp
        rw [← hV p' hp, grp_filterMap_atom]
        intro i hi
        rw [valD_numpy hi]; simp [hi]) hpos
    rw [← hd] at g1
    exact ⟨o, by simpa only [reduceNext] using g1, g2, g3, g4, g5, offsetsInRange_of_not_list g6,
      plainItems_leaf g6 (fun i hi => by rw [g5 i (by omega)]; exact reduceList_isList _)⟩
  | empty h1 h2 =>
    simp only [len] at hg hV hpos ⊢
    obtain ⟨o, g1, g2, g3, g4, g5, g6⟩ := reduceLeaf_ok (red := red) (mask := mask) (starts := starts)
      (shifts := shifts) (dt := dt) (g := g) (pos := pos) (data := fun _ => .int 0)
      (n := 0) (out := out) (V := V) h1 hid hg (by omega) (by
        intro p' hp
        rw [← hV p' hp]; rfl) hpos
    exact ⟨o, by simp only [reduceNext, ← h2]; exact g1, g2, g3, g4, g5, offsetsInRange_of_not_list g6,
      plainItems_leaf g6 (fun i hi => by rw [g5 i (by omega)]; exact reduceList_isList _)⟩
  | regular _ _ hh => have := nested_pos hh; omega
  | listArray _ hh => have := nested_pos hh; omega
  | listOffset _ _ _ hh => have := nested_pos hh; omega

theorem keptAt_all {q : Nat → Option Int} {n : Nat} (h : ∀ i, i < n → (q i).isSome = true) :
    cnt q n = n ∧ ∀ i, i < n → keptAt q n i = i := by
  have hc : ∀ i, i ≤ n → cnt q i = i := by
    intro i
    induction i with
    | zero => intro _; rfl
    | succ i ih => intro hi; rw [cnt_succ, ih (by omega), if_pos (h i (by omega))]
  refine ⟨hc n (Nat.le_refl _), fun i hi => ?_⟩
  have := (keptAt_cnt hi (h i hi)).2
  rwa [hc i (by omega)] at this

theorem base_option {c : Content} {fuel : Nat} {g pos : Nat → Nat} {V : Nat → List Val} {out : Nat}
    {starts shifts : List Int} (h : c.Good) (hn : Nested red dt z ix rg k 1 true c)
    (hk : (∃ p index d, c = indexed p index d) ∨ (∃ p index d, c = indexedOption p index d) ∨
      (∃ p mask vw d, c = byteMasked p mask vw d)) (hf : c.rank ≤ fuel)
    (hid : red.identityOk dt) (hg : ∀ i, i < c.len → g i < out)
    (hV : ∀ p, p < out → (grp g (fun j => (pos j, c.valD j)) c.len p).filterMap atomAt = ipresent (V p))
    (hs : shifts.length = 0 ∨ shifts.length = c.len)
    (hpos : red.returnsPositions = true → (ix → shifts = []) ∧ out ≤ starts.length ∧
      ∀ j, j < c.len → (j : Int) + (shiftAt shifts j - starts[g j]?.getD 0) = (pos j : Int)) :
    ∃ o, reduceNext red mask fuel 1 starts shifts (nats g c.len) out c = ok o ∧
      Reduced o out (fun p => Spec.reduceList red mask dt (V p)) := by
  have ho : c.isOptionOrIndexed = true := by
    rcases hk with ⟨p, i, d, rfl⟩ | ⟨p, i, d, rfl⟩ | ⟨p, m, v, d, rfl⟩ <;> rfl
  obtain ⟨f, rfl⟩ : ∃ f, fuel = f + 1 := ⟨fuel - 1, by cases c <;> simp only [rank] at hf <;> omega⟩
  obtain ⟨next, nsh, n1, n2, n3, n4, n5, n6, n7⟩ := reduceOption_step (mask := mask) (f := f) (negaxis := 1)
    (starts := starts) (g := g) (out := out) h hn hk hs
  rw [n7]
  obtain ⟨o, g1, g2⟩ := base_leaf (mask := mask) (fuel := f) (g := fun j => g (keptAt c.pickI c.len j))
    (pos := fun j => pos (keptAt c.pickI c.len j)) (V := V) (out := out) (starts := starts)
    (shifts := nsh) n2 (by omega) hid (by
      intro i hi
      exact hg _ (kept_get (by omega)).1) (by
      intro p hp
      rw [← hV p hp, ← grp_filterMap_kept (q := c.pickI) (g := g) (v := fun j => (pos j, c.valD j)), n4]
      · congr 1
        apply grp_congr (fun _ _ => rfl)
        intro i hi
        rw [n5 i (by omega)]
      · intro i hi hq
        have := (val_inner_pick h ho hi).1
        have hq' : c.pick i = none := by simpa [pickI] using hq
        rw [hq'] at this
        simp [atomAt, this]) (by
      intro hr
      obtain ⟨p1, p2, p4⟩ := hpos hr
      refine ⟨p2, ?_⟩
      by_cases hopt : c.isOption = true
      · simp only [hopt, hr, Bool.and_self, decide_true, if_true] at n6
        have hl : nsh.length = next.len := by rw [n6, List.length_map, kept_length, n4]
        refine ⟨.inr hl, ?_⟩
        intro j hj
        obtain ⟨s1, s2, s3⟩ := kept_get (q := c.pickI) (n := c.len) (j := j) (by omega)
        have hsh : shiftAt nsh j = shiftAt shifts (keptAt c.pickI c.len j)
            + ((keptAt c.pickI c.len j : Int) - (j : Int)) := by
          unfold shiftAt
          rw [if_neg (by omega), n6, ← map_keptAt]
          simp only [List.map_map, List.getElem?_map, List.getElem?_range (show j < cnt c.pickI c.len by omega),
            Option.map_some, Option.getD_some, Function.comp, s3, shiftAt]
        rw [hsh]
        have := p4 _ s1
        omega
      · have hix : ∃ p index d, c = indexed p index d := by
          rcases hk with ⟨p, i, d, rfl⟩ | ⟨p, i, d, rfl⟩ | ⟨p, m, v, d, rfl⟩
          · exact ⟨_, _, _, rfl⟩
          · simp [isOption] at hopt
          · simp [isOption] at hopt
        have hnil : shifts = [] := by
          obtain ⟨p, i, d, rfl⟩ := hix
          cases hn
          exact p1 (by assumption)
        simp only [hopt, Bool.false_and, Bool.false_eq_true, if_false] at n6
        subst n6
        refine ⟨.inl rfl, ?_⟩
        have hall := keptAt_all (q := c.pickI) (n := c.len) (by
          obtain ⟨p, index, d, rfl⟩ := hix
          intro i hi
          simp only [len] at hi
          have := (good_indexed.mp h).2 i hi
          simp only [pickI, pick, List.getElem?_eq_getElem hi, Option.getD_some]
          rw [if_neg (by omega)]; rfl)
        intro j hj
        have := p4 j (by omega)
        rw [hall.2 j (by omega)]
        rw [hnil] at this
        exact this)
  refine ⟨o, ?_, g2⟩
  rw [g1, bind_ok]
  rfl

/-- The innermost dimension, for any assignment of items to groups. -/
theorem base_inner {c : Content} {b : Bool} {fuel : Nat} {g pos : Nat → Nat} {V : Nat → List Val}
    {out : Nat} {starts shifts : List Int} (h : c.Good) (hn : Nested red dt z ix rg k 1 b c)
    (hf : c.rank ≤ fuel) (hid : red.identityOk dt) (hg : ∀ i, i < c.len → g i < out)
    (hV : ∀ p, p < out → (grp g (fun j => (pos j, c.valD j)) c.len p).filterMap atomAt = ipresent (V p))
    (hs : shifts.length = 0 ∨ shifts.length = c.len)
    (hpos : red.returnsPositions = true → (ix → shifts = []) ∧ out ≤ starts.length ∧
      ∀ j, j < c.len → (j : Int) + (shiftAt shifts j - starts[g j]?.getD 0) = (pos j : Int)) :
    ∃ o, reduceNext red mask fuel 1 starts shifts (nats g c.len) out c = ok o ∧
      Reduced o out (fun p => Spec.reduceList red mask dt (V p)) := by
  have leaf : ∀ (d : Content) (fuel : Nat), Nested red dt z ix rg k 1 false d → d.rank ≤ fuel →
      d.len = c.len → (∀ i, i < c.len → d.valD i = c.valD i) →
      ∃ o, reduceNext red mask fuel 1 starts shifts (nats g c.len) out d = ok o ∧
      Reduced o out (fun p => Spec.reduceList red mask dt (V p)) := by
    intro d fuel hd hf hl hv
    have := base_leaf (mask := mask) (fuel := fuel) (g := g) (pos := pos) (V := V) (out := out)
      (starts := starts) (shifts := shifts) hd hf hid (by rw [hl]; exact hg) (by
        intro p hp
        rw [hl, ← hV p hp]
        congr 1
        exact grp_congr (fun _ _ => rfl) (fun i hi => by rw [hv i hi])) (by
        rw [hl]
        exact fun hr => ⟨(hpos hr).2.1, hs, (hpos hr).2.2⟩)
    rwa [hl] at this
  cases b with
  | false => exact leaf c fuel hn hf rfl (fun _ _ => rfl)
  | true =>
    cases hn with
    | numpy h1 h2 => exact leaf _ fuel (.numpy h1 h2) hf rfl (fun _ _ => rfl)
    | empty h1 h2 => exact leaf _ fuel (.empty h1 h2) hf rfl (fun _ _ => rfl)
    | regular _ _ hh => have := nested_pos hh; omega
    | listArray _ hh => have := nested_pos hh; omega
    | listOffset _ _ _ hh => have := nested_pos hh; omega
    | indexed h1 h2 h3 =>
      exact base_option h (.indexed h1 h2 h3) (.inl ⟨_, _, _, rfl⟩) hf hid hg hV hs hpos
    | indexedOption h1 h2 =>
      exact base_option h (.indexedOption h1 h2) (.inr (.inl ⟨_, _, _, rfl⟩)) hf hid hg hV hs hpos
    | byteMasked h1 h2 =>
      exact base_option h (.byteMasked h1 h2) (.inr (.inr ⟨_, _, _, _, rfl⟩)) hf hid hg hV hs hpos
    | bitMasked h1 h2 =>
      rename_i p m vw length lsb d
      obtain ⟨bm, e1, e2, e3, e4⟩ := toByteMasked_bit h
      obtain ⟨f, rfl⟩ : ∃ f, fuel = f + 1 := ⟨fuel - 1, by simp only [rank] at hf; omega⟩
      simp only [reduceNext]
      rw [e1, bind_ok]
      simp only [rank] at hf
      simp only [len] at hg hV hs hpos e4 ⊢
      have := base_option (mask := mask) (fuel := f) (g := g) (pos := pos) (V := V) (out := out)
        (starts := starts) (shifts := shifts) e3 (.byteMasked (p := p) (mask := bm) (vw := vw) h1 h2)
        (.inr (.inr ⟨_, _, _, _, rfl⟩)) (by simp only [rank]; omega) hid
        (by simp only [len, e2]; exact hg) (by
          intro p' hp
          simp only [len, e2]
          rw [← hV p' hp]
          congr 1
          exact grp_congr (fun _ _ => rfl) (fun i hi => by rw [e4 i hi])) (by
          simp only [len, e2]; exact hs) (by simp only [len, e2]; exact hpos)
      simpa only [len, e2] using this
    | unmasked h1 =>
      rename_i p d
      obtain ⟨f, rfl⟩ : ∃ f, fuel = f + 1 := ⟨fuel - 1, by simp only [rank] at hf; omega⟩
      simp only [reduceNext]
      have hr : regularToOffsets d = ok d := by
        cases h1 with
        | numpy => rfl
        | empty => rfl
        | regular _ _ hh => have := nested_pos hh; omega
        | listArray _ h => rfl
        | listOffset _ _ _ h => rfl
      rw [hr, bind_ok]
      exact leaf d f h1 (by simp only [rank] at hf; omega) rfl (fun _ _ => rfl)

end Content
end Awk
