import Verif.Lemmas.IdentitiesAll
/-
The path of an identity leads to the item, on the listed values; identities follow the rows that are
selected.
-/

namespace Awk
open R Content

theorem inside_list {p : Params} {vs : List Val} {k : Nat} {v w : Val} {path : List IdPart}
    (h : vs[k]? = some v) (hi : Inside v path w) : Inside (wrapList p vs) (.row k :: path) w := by
  unfold wrapList
  split
  · exact .char h hi
  · exact .byte h hi
  · exact .item h hi

theorem inside_holds {c d : Content} {m i k : Nat} {part path : List IdPart} {w : Val} (hg : c.Good)
    (hd : c.children[m]? = some d) (h : HoldsItem c m i part k) (hi : Inside (d.valD k) path w) :
    Inside (c.valD i) (part ++ path) w := by
  cases h with
  | regular h1 h2 =>
    cases hd
    rw [valD_regular (good_regular.mp hg) h1]
    exact inside_list (v := d.valD (i * _ + _)) (by rw [seg_getElem?, if_pos h2]) hi
  | listArray h1 h2 h3 h4 =>
    cases hd
    obtain ⟨g1, rfl⟩ := List.getElem?_eq_some_iff.mp h1
    obtain ⟨g2, rfl⟩ := List.getElem?_eq_some_iff.mp h2
    obtain ⟨_, _, hp⟩ := good_listArray.mp hg
    have := hp i g1
    rw [valD_listArray hg g1 g2]
    obtain ⟨x, hx⟩ : ∃ x : Nat, (k : Int) - _ = (x : Int) := ⟨_, (Int.toNat_of_nonneg (Int.sub_nonneg_of_le h3)).symm⟩
    rw [hx]
    refine inside_list ?_ hi
    rw [seg_getElem?, if_pos (by omega)]
    congr 2
    rcases this with h | h <;> omega
  | listOffset h1 h2 h3 h4 =>
    cases hd
    obtain ⟨g1, rfl⟩ := List.getElem?_eq_some_iff.mp h1
    obtain ⟨g2, rfl⟩ := List.getElem?_eq_some_iff.mp h2
    obtain ⟨_, _, hp⟩ := good_listOffset.mp hg
    have := hp i g2
    rw [valD_listOffset hg g2]
    obtain ⟨x, hx⟩ : ∃ x : Nat, (k : Int) - _ = (x : Int) := ⟨_, (Int.toNat_of_nonneg (Int.sub_nonneg_of_le h3)).symm⟩
    rw [hx]
    refine inside_list ?_ hi
    rw [seg_getElem?, if_pos (by omega)]
    congr 2
    rcases this with h | h <;> omega
  | indexed h1 =>
    cases hd
    obtain ⟨g1, g2⟩ := List.getElem?_eq_some_iff.mp h1
    rw [valD_indexed hg g1, g2]
    exact hi
  | indexedOption h1 =>
    cases hd
    obtain ⟨g1, g2⟩ := List.getElem?_eq_some_iff.mp h1
    rw [valD_indexedOption hg g1, g2, if_neg (by omega)]
    exact hi
  | byteMasked h1 =>
    cases hd
    rw [valD_byteMasked hg h1]
    split
    · exact hi
    · exact .missing
  | bitMasked h1 =>
    cases hd
    rw [valD_bitMasked hg h1]
    split
    · exact hi
    · exact .missing
  | unmasked h1 =>
    cases hd
    exact hi
  | tuple h1 h2 =>
    rw [valD_record hg h2]
    exact .slot (by rw [List.getElem?_map]; simp only [children] at hd; rw [hd]; rfl) hi
  | record h1 h2 h3 =>
    rw [valD_record hg h2]
    refine .field (v := d.valD i) ?_ hi
    simp only [children] at hd
    obtain ⟨g1, rfl⟩ := List.getElem?_eq_some_iff.mp hd
    obtain ⟨g2, rfl⟩ := List.getElem?_eq_some_iff.mp h3
    exact List.mem_iff_getElem.mpr ⟨m, by simp; omega, by simp⟩
  | union h1 h2 =>
    simp only [children] at hd
    obtain ⟨g1, e1⟩ := List.getElem?_eq_some_iff.mp h1
    obtain ⟨g2, e2⟩ := List.getElem?_eq_some_iff.mp h2
    obtain ⟨g3, rfl⟩ := List.getElem?_eq_some_iff.mp hd
    rw [valD_union hg g1 g2 (by rw [e1]; exact g3), e2]
    simp only [e1, Int.toNat_natCast]
    exact hi

theorem inside_reach {c d : Content} {addr : List Nat} {i j : Nat} {path : List IdPart}
    (hg : c.Good) (hr : Reach c addr i path j) (hd : c.nodeAt addr = some d) :
    Inside (c.valD i) path (d.valD j) := by
  induction hr with
  | here h => cases hd; exact .here
  | step hm hh _ ih =>
    simp only [nodeAt, hm, Option.bind_some] at hd
    exact inside_holds hg hm hh (ih (hg.child (List.mem_of_getElem? hm)) hd)

theorem nodeAt_good {c d : Content} {addr : List Nat} (hg : c.Good) (hd : c.nodeAt addr = some d) :
    d.Good := by
  induction addr generalizing c with
  | nil => cases hd; exact hg
  | cons m addr ih =>
    simp only [nodeAt] at hd
    cases hm : c.children[m]? with
    | none => rw [hm] at hd; cases hd
    | some e =>
      rw [hm, Option.bind_some] at hd
      exact ih (hg.child (List.mem_of_getElem? hm)) hd

/-! ### Selecting rows -/

theorem carry_rows {ids : Ids} (hw : ids.Wf) {carry : List Int}
    (hc : ∀ x ∈ carry, 0 ≤ x ∧ x < ids.length) :
    ∃ out, ids.getitemCarry carry = ok out ∧ out.width = ids.width ∧ out.length = carry.length ∧
      out.fieldloc = ids.fieldloc ∧ out.data.length = out.length * out.width ∧
      ∀ i (h : i < carry.length), row out.width out.data i = row ids.width ids.data carry[i].toNat := by
  unfold Ids.getitemCarry
  obtain ⟨s, e, hs⟩ := forN_inv (n := carry.length) (body := fun i t =>
      rd carry i >>= fun j =>
      if j ≥ ids.length then err "index out of range" else
      forN ids.width (fun (k : Nat) t => rd ids.data ((ids.width : Int) * j + k) >>= fun x =>
        wr t ((ids.width : Int) * i + k) x) t)
    (s := alloc ((ids.width * carry.length : Nat) : Int))
    (fun m t => t.length = carry.length * ids.width ∧
      ∀ i (h : i < carry.length), i < m → row ids.width t i = row ids.width ids.data carry[i].toNat)
    ⟨alloc_rows _ _, fun i _ h => by omega⟩ (by
      intro i hi s hs
      have hci := hc carry[i] (List.getElem_mem hi)
      rw [rd_nat_ok hi, bind_ok, if_neg (by omega)]
      have hj : carry[i].toNat < ids.length := by omega
      have hb := le_mul_of_lt (w := ids.width) hj
      rw [← hw.data] at hb
      have hb2 := le_mul_of_lt (w := ids.width) hi
      have e := copyRow_ok (t := s) (f := ids.data) (a := i * ids.width) (b := carry[i].toNat * ids.width)
        (to_ := (ids.width : Int) * i) (from_ := (ids.width : Int) * carry[i]) (w := ids.width)
        (by push_cast; rw [Int.mul_comm]) (by push_cast; rw [Int.toNat_of_nonneg hci.1, Int.mul_comm])
        (by rw [Nat.succ_mul] at hb2; omega) (by rw [Nat.succ_mul] at hb; omega)
      unfold copyRow at e
      have hr : ((ids.data.drop (carry[i].toNat * ids.width)).take ids.width).length = ids.width :=
        row_length hb
      refine ⟨_, e, ?_, ?_⟩
      · rw [put_length (by rw [hr]; rw [Nat.succ_mul] at hb2; omega)]; exact hs.1
      · intro i' hi' hlt
        rw [row_put hr (by rw [hs.1]; exact hb2)]
        split
        · next h => subst h; rfl
        · exact hs.2 i' hi' (by omega))
  rw [e, bind_ok]
  exact ⟨_, rfl, rfl, rfl, rfl, hs.1, fun i h => hs.2 i h h⟩

end Awk
