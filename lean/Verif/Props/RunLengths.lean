import Verif.Lemmas.RunLists
import Verif.Props.Unflatten
import Verif.Lemmas.ValEq
/-
C65: `run_lengths` counts the runs of equal neighbours in each list.
-/

namespace Awk.Props
open Awk R Content Spec

theorem isRuns_grow {x : Val} {xs : List Val} {ns : List Nat} (h : IsRuns (x :: xs) ns) :
    IsRuns (x :: x :: xs) (grow ns) := by
  obtain ⟨vs, h1, h2, h3, h4⟩ := h
  cases ns with
  | nil => simp at h2
  | cons n ns =>
    cases vs with
    | nil => simp at h1
    | cons v vs =>
      have hn := h3 n List.mem_cons_self
      obtain ⟨k, rfl⟩ : ∃ k, n = k + 1 := ⟨n - 1, by omega⟩
      rw [List.zipWith_cons_cons, List.flatten_cons, List.replicate_succ, List.cons_append,
        List.cons.injEq] at h2
      obtain ⟨rfl, h2⟩ := h2
      refine ⟨x :: vs, h1, ?_, ?_, h4⟩
      · rw [grow, List.zipWith_cons_cons, List.flatten_cons, List.replicate_succ, List.cons_append,
          List.replicate_succ, List.cons_append, h2]
      · intro m hm
        rcases List.mem_cons.mp hm with rfl | hm
        · omega
        · exact h3 m (List.mem_cons_of_mem _ hm)

theorem isRuns_cons {x y : Val} {xs : List Val} {ns : List Nat} (hxy : x ≠ y)
    (h : IsRuns (y :: xs) ns) : IsRuns (x :: y :: xs) (1 :: ns) := by
  obtain ⟨vs, h1, h2, h3, h4⟩ := h
  refine ⟨x :: vs, by simp [h1], ?_, ?_, ?_⟩
  · rw [List.zipWith_cons_cons, List.flatten_cons, ← h2]; rfl
  · intro m hm
    rcases List.mem_cons.mp hm with rfl | hm
    · omega
    · exact h3 m hm
  · intro i hi
    cases i with
    | zero =>
      cases vs with
      | nil => simp at hi
      | cons v vs =>
        cases ns with
        | nil => simp at h1
        | cons n ns =>
          have hn := h3 n List.mem_cons_self
          obtain ⟨k, rfl⟩ : ∃ k, n = k + 1 := ⟨n - 1, by omega⟩
          rw [List.zipWith_cons_cons, List.flatten_cons, List.replicate_succ, List.cons_append,
            List.cons.injEq] at h2
          show x ≠ v
          exact h2.1 ▸ hxy
    | succ i => exact h4 i (by simpa using hi)

theorem isRuns_runs (xs : List Val) : IsRuns xs (runs xs) := by
  induction xs with
  | nil => exact ⟨[], rfl, rfl, by simp [runs], by simp⟩
  | cons x xs ih =>
    cases xs with
    | nil => exact ⟨[x], rfl, rfl, by simp [runs], by simp⟩
    | cons y xs =>
      rw [runs]
      split
      next h => subst h; exact isRuns_grow ih
      next h => exact isRuns_cons h ih

theorem runs_replicate (v : Val) (k : Nat) : runs (List.replicate (k + 1) v) = [k + 1] := by
  induction k with
  | zero => rfl
  | succ k ih =>
    rw [List.replicate_succ, List.replicate_succ, runs, if_pos rfl, ← List.replicate_succ, ih]; rfl

theorem runs_replicate_append {v w : Val} (hvw : v ≠ w) (k : Nat) (ws : List Val) :
    runs (List.replicate (k + 1) v ++ w :: ws) = (k + 1) :: runs (w :: ws) := by
  induction k with
  | zero => show runs (v :: w :: ws) = _; rw [runs, if_neg hvw]
  | succ k ih =>
    rw [List.replicate_succ, List.replicate_succ, List.cons_append, List.cons_append, runs, if_pos rfl,
      ← List.cons_append, ← List.replicate_succ, ih]; rfl

theorem runs_unique {xs : List Val} {ns : List Nat} (h : IsRuns xs ns) : ns = runs xs := by
  obtain ⟨vs, h1, h2, h3, h4⟩ := h
  subst h2
  induction ns generalizing vs with
  | nil => simp [runs]
  | cons n ns ih =>
    obtain ⟨k, rfl⟩ : ∃ k, n = k + 1 := ⟨n - 1, by have := h3 n List.mem_cons_self; omega⟩
    cases vs with
    | nil => simp at h1
    | cons v vs =>
      rw [List.zipWith_cons_cons, List.flatten_cons]
      have hi := ih vs (by simpa using h1) (fun m hm => h3 m (List.mem_cons_of_mem _ hm))
        (fun i hi => h4 (i + 1) (by simpa using hi))
      cases ns with
      | nil => simp [runs_replicate]
      | cons m ns =>
        obtain ⟨l, rfl⟩ : ∃ l, m = l + 1 :=
          ⟨m - 1, by have := h3 m (List.mem_cons_of_mem _ List.mem_cons_self); omega⟩
        cases vs with
        | nil => simp at h1
        | cons w vs =>
          have hvw : v ≠ w := h4 0 (by simp)
          rw [List.zipWith_cons_cons, List.flatten_cons, List.replicate_succ (n := l),
            List.cons_append] at hi ⊢
          rw [runs_replicate_append hvw, ← hi]

/-- **C65, the specification.** The lengths that the theorems below are about are those of the runs of
equal neighbours, and there are no others. -/
theorem C65_runs (xs : List Val) (ns : List Nat) : IsRuns xs ns ↔ ns = runs xs :=
  ⟨runs_unique, fun h => h ▸ isRuns_runs xs⟩

/-- **C65, flat arrays.** `run_lengths` of a flat array of numbers or strings has the lengths of its runs. -/
theorem C65_flat (c : Content) (h : c.validity = ok ()) (hf : FlatArray c) (vs : List Val)
    (hv : c.toList = ok vs) :
    ∃ d ns, c.runLengths = ok d ∧ IsRuns vs ns ∧
      d.toList = ok (ns.map (fun (n : Nat) => Val.atom (.int n))) := by
  have hg := good_of_validity h
  rw [hg.toList, ok.injEq] at hv
  subst hv
  refine ⟨_, _, runLengths_flat hf hg, isRuns_runs _, ?_⟩
  rw [(show (intArray ((runs ((List.range c.len).map c.valD)).map (fun (n : Nat) => (n : Int)))).Good
    from good_numpy _ _ _).toList]
  congr 1
  apply List.ext_getElem
  · simp [len_intArray]
  · intro i h1 h2
    have hi : i < (runs ((List.range c.len).map c.valD)).length := by simpa using h2
    rw [List.getElem_map, List.getElem_map, List.getElem_range, valD_intArray (by simpa using hi)]
    simp

/-- **C65 (partial).** `run_lengths` replaces every innermost list by the lengths of its runs of equal
neighbours. Missing: lists that begin or end with an empty list (`C65_first_empty_violated`,
`C65_last_empty_violated`), options directly around the lists (`C65_option_violated`). -/
theorem C65_run_lengths_partial (c : Content) (h : c.validity = ok ()) (depth : Nat)
    (hd : InnerLists depth c) (vs : List Val) (hv : c.toList = ok vs) :
    ∃ d, c.runLengths = ok d ∧ d.toList = ok (vs.map (Val.mapDepth Val.runs depth)) := by
  have hg := good_of_validity h
  obtain ⟨e, g1, g2⟩ := runLengths_ok hd hg
  exact ⟨e, g1, toList_maps hg g2 hv⟩

/-- `[1, 1, 2, 2, 2, 1]` -/
def runsExample : Content :=
  .numpy {} .int64 [.int 1, .int 1, .int 2, .int 2, .int 2, .int 1]

example : runsExample.validity = ok () ∧ FlatArray runsExample := ⟨rfl, .leaf .numpy⟩
example : (runsExample.runLengths >>= toList) = ok [.atom (.int 2), .atom (.int 3), .atom (.int 1)] :=
  R.lists (by decide +kernel)

/-- `["b", "b", "a"]`, by an index. -/
def runsStrings : Content :=
  .indexed {} [1, 1, 0] (.listOffset { arr := .string } [0, 1, 2]
    (.numpy { arr := .char } .uint8 [.int 97, .int 98]))

example : runsStrings.validity = ok () ∧ FlatArray runsStrings := ⟨rfl, .strings rfl (.inl rfl)⟩
example : (runsStrings.runLengths >>= toList) = ok [.atom (.int 2), .atom (.int 1)] :=
  R.lists (by decide +kernel)

/-- `[[[1, 1, 2], [], [2]], [[2, 2]]]`; the run of twos does not go on in the next list. -/
def runsNestedExample : Content :=
  .listOffset {} [0, 3, 4] (.listArray {} [1, 0, 4, 5] [4, 0, 5, 7]
    (.numpy {} .int64 [.int 9, .int 1, .int 1, .int 2, .int 2, .int 2, .int 2]))

example : runsNestedExample.validity = ok () := by rfl
example : InnerLists 1 runsNestedExample := by
  refine .list rfl (by decide) (by decide) fun d hd => ?_
  cases List.mem_singleton.mp hd
  refine .here rfl (by decide) (by decide) (fun d hd => ?_) ?_
  · cases List.mem_singleton.mp hd
    exact .numpy
  · intro vs hv
    rw [show vs = [.list [.atom (.int 1), .atom (.int 1), .atom (.int 2)], .list [],
      .list [.atom (.int 2)], .list [.atom (.int 2), .atom (.int 2)]] from
        (R.ok.inj hv).symm]
    refine .inr (.inr ⟨?_, ?_⟩) <;> rintro v h <;> cases h <;> simp [Val.items]
example : (runsNestedExample.runLengths >>= toList) = ok [
    .list [.list [.atom (.int 2), .atom (.int 1)], .list [], .list [.atom (.int 1)]],
    .list [.list [.atom (.int 2)]]] :=
  R.lists (by decide +kernel)

/-- **C65, with unflatten.** As documented, `unflatten(array, run_lengths(array))` groups a flat array
into lists of equal elements, none of them empty, where neighbouring lists have different elements. -/
theorem C65_groups (same : Content → Content → Bool) (bare : Bool) (c : Content)
    (h : c.validity = ok ()) (hf : FlatArray c) (hp : Packable bare false c)
    (hw : IsOk (c.axisWrap (-1))) (vs : List Val) (hv : c.toList = ok vs) :
    ∃ ns us d e, c.runLengths = ok d ∧
      d.toList = ok (ns.map (fun (n : Nat) => Val.atom (.int n))) ∧
      c.unflatten same (.each (ns.map (fun (n : Nat) => some (n : Int)))) 0 = ok e ∧
      e.toList = ok (List.zipWith (fun k u => Val.list (List.replicate k u)) ns us) ∧
      ns.length = us.length ∧ vs = (List.zipWith List.replicate ns us).flatten ∧
      (∀ k ∈ ns, 0 < k) ∧ ∀ i (hi : i + 1 < us.length), us[i] ≠ us[i + 1] := by
  obtain ⟨d, ns, h1, ⟨us, h2, h3, h4, h5⟩, h6⟩ := C65_flat c h hf vs hv
  have hc : (ns.map some).map (Option.map Int.ofNat) = ns.map (fun (n : Nat) => some (n : Int)) := by
    rw [List.map_map]; rfl
  have hs : ∀ (ns : List Nat) (us : List Val), us.length = ns.length →
      Splits (List.zipWith List.replicate ns us).flatten
        (List.zipWith (fun k u => Val.list (List.replicate k u)) ns us) (ns.map some) := by
    intro ns
    induction ns with
    | nil => intro us _; exact .nil
    | cons n ns ih =>
      intro us hl
      cases us with
      | nil => simp at hl
      | cons u us =>
        have := Splits.list (xs := List.replicate n u) (ih us (by simpa using hl))
        rw [List.length_replicate] at this
        exact this
  have hr : Regroups 0 vs (List.zipWith (fun k u => Val.list (List.replicate k u)) ns us)
      (ns.map some) := .here (h3 ▸ hs ns us h2)
  obtain ⟨q1, q2, _⟩ := C61_unflatten_partial same bare c h hp hw vs hv (ns.map some)
  obtain ⟨e, he⟩ := q2 _ hr
  obtain ⟨ys, hy, hys⟩ := q1 e he
  have huniq : ∀ {xs ys zs : List Val} {cs : List (Option Nat)}, Splits xs ys cs → Splits xs zs cs →
      ys = zs := by
    intro xs ys zs cs s1 s2
    induction s1 generalizing zs with
    | nil =>
      generalize hk : ([] : List (Option Nat)) = cs at s2
      generalize hx : ([] : List Val) = w at s2
      cases s2 with
      | nil => rfl
      | list => cases hk
      | missing => cases hk
    | missing _ ih =>
      generalize hk : (none :: _ : List (Option Nat)) = cs at s2
      cases s2 with
      | nil => cases hk
      | list => cases hk
      | missing s => rw [List.cons.injEq] at hk; rw [ih (hk.2 ▸ s)]
    | @list xs vs ys counts _ ih =>
      generalize hx : xs ++ vs = w at s2
      generalize hk : (some xs.length :: counts : List (Option Nat)) = cs at s2
      cases s2 with
      | nil => cases hk
      | missing => cases hk
      | @list xs' vs' ys' counts' s =>
        rw [List.cons.injEq, Option.some.injEq] at hk
        obtain ⟨a1, a2⟩ := List.append_inj hx hk.1
        subst a1; subst a2; rw [← hk.2] at s
        rw [ih s]
  have : ys = List.zipWith (fun k u => Val.list (List.replicate k u)) ns us := by
    cases hys with | here s1 => cases hr with | here s2 => exact huniq s1 s2
  rw [hc] at he
  exact ⟨ns, us, d, e, h1, h6, he, this ▸ hy, h2.symm, h3, h4, h5⟩

example : Packable true false runsExample ∧ IsOk (runsExample.axisWrap (-1)) := ⟨trivial, ⟨_, rfl⟩⟩
example : (runsExample.unflatten (fun _ _ => false) (.each [some 2, some 3, some 1]) 0 >>= toList)
    = ok [.list [.atom (.int 1), .atom (.int 1)],
      .list [.atom (.int 2), .atom (.int 2), .atom (.int 2)], .list [.atom (.int 1)]] :=
  R.lists (by decide +kernel)

/-- **C65 fails** for every array of at least two lists of numbers in which the last list is empty, but not
all of them: the boundary before it is the end of the data, where there is nothing to mark
(structure.py:351-352), so that NumPy raises. -/
theorem C65_last_empty_violated (c : Content) (h : c.validity = ok ()) (hl : c.isListNode = true)
    (hs : c.params.arr ≠ .string ∧ c.params.arr ≠ .bytestring) (hc : ∀ d ∈ c.children, Leaf d)
    (us : List (List Val)) (hu : us ≠ []) (hv : c.toList = ok ((us ++ [[]]).map Val.list))
    (hne : ∃ u ∈ us, u ≠ []) : IsErr c.runLengths := by
  have hg := good_of_validity h
  have hlen : c.len = us.length + 1 := by
    have := congrArg (fun r => match r with | ok (l : List Val) => l.length | _ => 0) (hg.toList.symm.trans hv)
    simpa using this
  have hvals : ∀ i (hi : i < us.length + 1), c.lens i = ((us ++ [[]])[i]'(by simpa using hi)).length := by
    have := hg.toList.symm.trans hv
    rw [ok.injEq] at this
    intro i hi
    have e := congrArg (fun l : List Val => l[i]?) this
    simp only [List.getElem?_map, List.getElem?_range (show i < c.len by omega)] at e
    rw [List.getElem?_eq_getElem (by simpa using hi)] at e
    simp only [Option.map_some, Option.some.injEq] at e
    rw [Content.lens, e]; rfl
  have h0 : c.lens (c.len - 1) = 0 := by rw [hvals _ (by omega)]; simp [hlen]
  have hp : 0 < sumTo c.lens c.len := by
    apply Nat.pos_of_ne_zero
    intro hz
    obtain ⟨u, hu1, hu2⟩ := hne
    obtain ⟨i, hi, rfl⟩ := List.mem_iff_getElem.mp hu1
    have := sumTo_eq_zero hz (i := i) (by omega)
    rw [hvals i (by omega), List.getElem_append_left hi] at this
    exact hu2 (List.eq_nil_of_length_eq_zero this)
  have hb : c.branchLoop = (false, 2) := by
    have := branchLoop_list hl hs.1 hs.2 fun d hd => (hc d hd).branchLoop
    simpa using this
  have hr := runsLists_last_empty hg (over_of_leaf hl hs.1 hs.2 hc) (by
    have := List.length_pos_iff.mpr hu; omega) h0 hp
  have hn : IsErr c.runsNested := by
    unfold runsNested
    cases c <;> simp only [isListNode, Bool.false_eq_true] at hl
    all_goals exact hr _ rfl
  obtain ⟨m, hm⟩ := hn
  refine ⟨m, ?_⟩
  have hget : runLengthsGet 1 () c = err m := by
    unfold runLengthsGet
    rw [hb, if_neg (by decide), if_pos (by decide), hm]
    rfl
  unfold runLengths
  cases c <;> simp only [apply, hget, bind_err]

/-- `[[1, 2], []]` -/
example :
    let c := Content.listOffset {} [0, 2, 2] (.numpy {} .int64 [.int 1, .int 2])
    c.validity = ok () ∧ c.toList = ok (([[Val.atom (.int 1), .atom (.int 2)]] ++ [[]]).map Val.list) :=
  ⟨rfl, rfl⟩

/-- **C65 fails** for an empty list at the beginning: the boundary after it counts from the end of the data
(structure.py:351-352), so that the last run is divided, or nothing can be marked. -/
theorem C65_first_empty_violated :
    (let c := Content.listOffset {} [0, 0, 2] (.numpy {} .int64 [.int 1, .int 1])
    c.validity = ok () ∧ c.toList = ok [.list [], .list [.atom (.int 1), .atom (.int 1)]] ∧
    (c.runLengths >>= toList) = ok [.list [], .list [.atom (.int 1), .atom (.int 1)]]) ∧
    (let c := Content.listOffset {} [0, 0, 1] (.numpy {} .int64 [.int 5])
    c.validity = ok () ∧ c.toList = ok [.list [], .list [.atom (.int 5)]] ∧ IsErr c.runLengths) :=
  ⟨⟨rfl, rfl, R.lists (by decide +kernel)⟩, rfl, rfl, _, rfl⟩

/-- **C65 fails** for missing lists: an option around the innermost lists is not handled. -/
theorem C65_option_violated :
    let c := Content.indexedOption {} [0, -1] (.listOffset {} [0, 2] (.numpy {} .int64 [.int 1, .int 1]))
    c.validity = ok () ∧ c.toList = ok [.list [.atom (.int 1), .atom (.int 1)], .null] ∧
    IsErr c.runLengths :=
  ⟨rfl, rfl, _, rfl⟩

/-- **C65 fails** for records of numbers and lists: the field of numbers becomes the lengths of its runs as a
whole, which do not have the length of the array, so that the result is not valid. -/
theorem C65_records_violated :
    let c := Content.record {} (some ["x", "y"]) [.numpy {} .int64 [.int 1, .int 1],
      .listOffset {} [0, 1, 2] (.numpy {} .int64 [.int 3, .int 4])] 2
    c.validity = ok () ∧ ∃ d, c.runLengths = ok d ∧ d.validity ≠ ok () := by
  refine ⟨rfl, _, rfl, ?_⟩
  rintro h
  exact nomatch (show R.err _ = R.ok _ from h)

end Awk.Props
