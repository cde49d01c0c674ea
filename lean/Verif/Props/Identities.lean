import Verif.Lemmas.IdentitiesPath
import Verif.Lemmas.ValEq
/-
Property theorem C45: row identities.
-/

namespace Awk.Props
open Awk R Content

theorem new_parts {n i : Nat} (h : i < n) :
    ({ width := 1, length := n, fieldloc := [], data := (List.range n).map (fun (i : Nat) => (i : Int)) } : Ids).parts i
      = [.row i] := by
  have e : row 1 ((List.range n).map (fun (i : Nat) => (i : Int))) i = [(i : Int)] := by
    apply List.ext_getElem?
    intro k
    rw [row_getElem?]
    by_cases hk : k < 1
    · rw [if_pos hk, List.getElem?_map, List.getElem?_range (by omega)]
      simp only [show k = 0 by omega]; simp
    · rw [if_neg hk, List.getElem?_eq_none (by simp; omega)]
  unfold Ids.parts
  rw [e]
  rfl

/-- **C45.** `setidentities()` succeeds, and gives contents tables with one row for each item. When
item `j` of the content at `addr` belongs to item `i` of the array at `path`, its identity is `i`
followed by `path`; when it belongs to no item its identity begins with -1. Every content has such a
table if no item is shared by two items. Missing for the full property: arrays that are not
`Identifiable`, for which it is false (see the violations below). -/
theorem C45_identities_partial (c : Content) (hc : c.validity = ok ()) (hid : c.Identifiable 1) :
    ∃ t, setidentitiesNew c = ok t ∧
      (∀ addr d, c.nodeAt addr = some d → ∀ ids, t.idsAt addr = some ids →
        ids.length = d.len ∧
        (∀ i path j, Reach c addr i path j → ids.identityAt j = ok (.row i :: path)) ∧
        ∀ j, j < d.len → (∀ i path, ¬ Reach c addr i path j) →
          ∃ rest, ids.identityAt j = ok (.row (-1) :: rest)) ∧
      (c.Unshared → (∀ p, c ≠ .empty p) → ∀ addr d, c.nodeAt addr = some d →
        ∃ ids, t.idsAt addr = some ids) := by
  have hg := good_of_validity hc
  by_cases he : ∃ p, c = .empty p
  · obtain ⟨p, rfl⟩ := he
    refine ⟨_, rfl, ?_, fun _ h => absurd rfl (h p)⟩
    intro addr d _ ids hids
    cases addr <;> cases hids
  · have hne : ∀ p, c ≠ .empty p := fun p h => he ⟨p, h⟩
    let ids : Ids := { width := 1, length := c.len, fieldloc := [],
                       data := (List.range c.len).map (fun (i : Nat) => (i : Int)) }
    have hw : ids.Wf := ⟨Nat.le_refl 1, by simp [ids], by simp [ids]⟩
    obtain ⟨t, e, hT⟩ := set_ok c ids hw rfl hg hid
    refine ⟨t, ?_, ?_, fun hu _ addr d hd => (hT addr d hd).2 hu⟩
    · cases c with
      | empty p => exact absurd rfl (hne p)
      | _ => simp only [setidentitiesNew]; rw [new_ok (alloc_length _), bind_ok]; exact e
    · intro addr d hd sub hs
      obtain ⟨hwf, hl, hhere, hgone⟩ := (hT addr d hd).1 sub hs
      have hat : ∀ j, j < d.len → sub.identityAt j = ok (sub.parts j) := fun j hj =>
        identityAt_ok (by rw [hwf.data, hl]; exact le_mul_of_lt hj)
      refine ⟨hl, ?_, ?_⟩
      · intro i path j hr
        have hp : ids.parts i = [.row i] := new_parts hr.lt
        obtain ⟨hj, ep⟩ := hhere i path j hr (by rw [hp]; unfold Dead; simp)
        rw [hat j hj, ep, hp]
        rfl
      · intro j hj hno
        have hdead := hgone j hj (fun i path hr => absurd hr (hno i path))
        rw [hat j hj]
        unfold Dead at hdead
        cases hp : sub.parts j with
        | nil => rw [hp] at hdead; cases hdead
        | cons x rest =>
          rw [hp] at hdead
          simp only [List.head?_cons, Option.some.injEq] at hdead
          exact ⟨rest, by rw [hdead]⟩

/-- **C45, the path.** The path of an identity leads to the item: in what `to_list` shows of item
`i`, item `j` of the content is found at `path`, unless a missing value is on the way. -/
theorem C45_path (c d : Content) (addr : List Nat) (i j : Nat) (path : List IdPart) (v w : Val)
    (hc : c.validity = ok ()) (hd : c.nodeAt addr = some d) (hr : Reach c addr i path j)
    (hv : c.val i = ok v) (hw : d.val j = ok w) : Inside v path w := by
  have := inside_reach (good_of_validity hc) hr hd
  rwa [valD_eq hv, valD_eq hw] at this

/-- **C45, selections.** The identities of selected rows (`array[[2, 0, …]]`) are those of the rows
selected. -/
theorem C45_carry (ids : Ids) (carry : List Int) (hw : 1 ≤ ids.width)
    (hd : ids.data.length = ids.length * ids.width) (hf : ∀ p ∈ ids.fieldloc, p.1 < ids.width)
    (hc : ∀ x ∈ carry, 0 ≤ x ∧ x < ids.length) :
    ∃ out, ids.getitemCarry carry = ok out ∧ out.length = carry.length ∧
      ∀ i (h : i < carry.length), out.identityAt i = ids.identityAt carry[i].toNat := by
  obtain ⟨out, e, h1, h2, h3, h4, h5⟩ := carry_rows ⟨hw, hd, hf⟩ hc
  refine ⟨out, e, h2, ?_⟩
  intro i h
  have hx := hc carry[i] (List.getElem_mem h)
  rw [identityAt_ok (by rw [h4, h2]; exact le_mul_of_lt h),
    identityAt_ok (by rw [hd]; exact le_mul_of_lt (by omega))]
  unfold Ids.parts
  rw [h5 i h, h3]

/-! ### Examples -/

/-- `[[{"x": 0, "y": None}, {"x": 1, "y": 2.5}], [], [{"x": 2, "y": 3.5}]]`, with lists out of order
and items that belong to no list. -/
def exampleIds : Content :=
  .listArray {} [4, 0, 2] [6, 0, 3] (.record {} (some ["x", "y"])
    [.numpy {} .int64 ([9, 9, 2, 9, 0, 1].map .int),
     .indexedOption {} [-1, -1, 0, -1, -1, 2] (.numpy {} .int64 ([35, 99, 25].map .int))] 6)

example : exampleIds.validity = ok () := rfl
example : exampleIds.Identifiable 1 := by
  simp [exampleIds, Identifiable, IdentifiableAll, len]
/-- Item 2 of the numbers below `"y"` belongs to `[0]["y"]` of the second item of the first list. -/
example : Reach exampleIds [0, 1, 0] 0 [.row 1, .field "y"] 2 :=
  .step (path := [.field "y"]) rfl (.listArray (j := 5) (s := 4) (e := 6) rfl rfl (by decide) (by decide))
    (.step (path := []) rfl (.record (by decide) (by decide) rfl)
      (.step (part := []) (path := []) rfl (.indexedOption rfl) (.here (by decide))))
/-- Its identity, and that of an item that belongs to nothing. -/
example : (setidentitiesNew exampleIds >>= fun t => match t.idsAt [0, 1, 0] with
    | some ids => ids.identityAt 2 >>= fun a => ids.identityAt 1 >>= fun b => ok (a, b)
    | none => err "") = ok ([.row 0, .row 1, .field "y"], [.row (-1), .row (-1), .field "y"]) := by
  decide +kernel
/-- `array[[2, 0]]` of identities with two columns. -/
example : (Ids.getitemCarry ⟨2, 3, [], [0, 0, 0, 1, 1, 0]⟩ [2, 0]) = ok ⟨2, 2, [], [1, 0, 0, 0]⟩ := by
  decide +kernel

/-! ### Defects -/

theorem holds_regular {p : Params} {c : Content} {size zeros i j : Nat} {part : List IdPart}
    (h : HoldsItem (.regular p c size zeros) 0 i part j) :
    ∃ k, i < (Content.regular p c size zeros).len ∧ k < size ∧ j = i * size + k := by
  cases h with
  | regular h1 h2 => exact ⟨_, h1, h2, rfl⟩

/-- **C45 is false for lists of fixed size with a remainder.** The kernel leaves the rows of the
remainder uninitialised, because it begins to fill one list too late. -/
theorem C45_regular_violated :
    let c := Content.regular {} (.numpy {} .int64 ([1, 2, 3].map .int)) 2 0
    c.validity = ok () ∧ (∀ i path, ¬ Reach c [0] i path 2) ∧
      ∃ t ids, setidentitiesNew c = ok t ∧ t.idsAt [0] = some ids ∧
        ids.identityAt 2 = ok [.row (-559038737), .row (-559038737)] := by
  refine ⟨rfl, ?_, _, _, rfl, rfl, by decide +kernel⟩
  intro i path h
  cases h with
  | step hm hh hr =>
    cases hr with
    | here _ =>
      obtain ⟨k, h1, h2, h3⟩ := holds_regular hh
      simp [len] at h1
      omega

/-- **C45 is false for masked items in lists.** The kernel is told the number of rows instead of the
number of values, so that the rest is uninitialised. -/
theorem C45_masked_violated :
    let c := Content.listOffset {} [0, 2] (.byteMasked {} [1, 1] true (.numpy {} .int64 ([1, 2].map .int)))
    c.validity = ok () ∧ Reach c [0, 0] 0 [.row 1] 1 ∧
      ∃ t ids, setidentitiesNew c = ok t ∧ t.idsAt [0, 0] = some ids ∧
        ids.identityAt 1 = ok [.row (-559038737), .row (-559038737)] := by
  refine ⟨rfl, ?_, _, _, rfl, rfl, by decide +kernel⟩
  exact .step (part := [.row 1]) (path := []) rfl (.listOffset (j := 1) (s := 0) (e := 2) rfl rfl (by decide) (by decide))
    (.step (part := []) (path := []) rfl (.byteMasked (by decide)) (.here (by decide)))

/-- **C45 is false for empty lists outside of the content.** The array is valid, because its lists
are empty, but the kernel writes beyond its buffer. -/
theorem C45_offsets_violated :
    let c := Content.listOffset {} [5, 5] (.numpy {} .int64 ([1, 2].map .int))
    c.validity = ok () ∧ setidentitiesNew c = ub := by
  exact ⟨rfl, rfl⟩

/-- **C45 is false for records with longer fields.** The array is valid, and `setidentities` raises
after the identities of the fields before have been set. -/
theorem C45_record_violated :
    let c := Content.record {} none [.numpy {} .int64 ([1, 2].map .int)] 1
    c.validity = ok () ∧ (setidentitiesNew c).IsErr :=
  ⟨rfl, _, rfl⟩

/-- **Defect.** Reading a row of identities (`identities[at]`) gives values of other rows. -/
theorem C45_getitem_at_violated :
    let ids : Ids := ⟨2, 3, [], [0, 0, 0, 1, 1, 0]⟩
    ids.getitemAtNowrap 2 = ok [0, 1] ∧ ids.identityAt 2 = ok [.row 1, .row 0] := by
  constructor <;> decide +kernel

/-- **Defect.** A deep copy of identities has only as many values as rows: reading the last row
leaves the buffer. -/
theorem C45_deep_copy_violated :
    let ids : Ids := ⟨2, 3, [], [0, 0, 0, 1, 1, 0]⟩
    (ids.deepCopy >>= fun copy => copy.identityAt 2) = ub ∧ ids.identityAt 2 = ok [.row 1, .row 0] := by
  constructor <;> decide +kernel

end Awk.Props
