import Verif.Lemmas.Unique
/-
`is_unique` of strings.
-/

namespace Awk
open R

/-! ### The order of the words -/

theorem wordLess_asymm : ∀ {x y : List Int}, wordLess x y = true → wordLess y x = false
  | [], [], _ => rfl
  | [], _ :: _, _ => rfl
  | _ :: _, [], h => by simp [wordLess] at h
  | a :: as, b :: bs, h => by
    simp only [wordLess] at h ⊢
    split_ifs at h ⊢ with h1 h2
    · omega
    · rfl
    · exact wordLess_asymm h

theorem wordLess_neg : ∀ {x z : List Int} (y : List Int), wordLess x z = true → wordLess x y = true ∨ wordLess y z = true
  | [], [], _, h => by simp [wordLess] at h
  | _ :: _, [], _, h => by simp [wordLess] at h
  | [], _ :: _, [], _ => .inr rfl
  | [], _ :: _, _ :: _, _ => .inl rfl
  | a :: as, c :: cs, [], _ => .inr rfl
  | a :: as, c :: cs, b :: bs, h => by
    simp only [wordLess] at h ⊢
    split_ifs at h ⊢ <;> first | omega | simp | skip
    exact wordLess_neg bs h

theorem wordLess_eq : ∀ {x y : List Int}, wordLess x y = false → wordLess y x = false → x = y
  | [], [], _, _ => rfl
  | [], _ :: _, h, _ => by simp [wordLess] at h
  | _ :: _, [], _, h => by simp [wordLess] at h
  | a :: as, b :: bs, h1, h2 => by
    simp only [wordLess] at h1 h2
    split_ifs at h1 h2 <;> first | omega | skip
    rw [wordLess_eq h1 h2, show a = b by omega]

theorem insertWord_perm (w : List Int) (vs : List (List Int)) : (insertWord w vs).Perm (w :: vs) := by
  induction vs with
  | nil => exact List.Perm.refl _
  | cons v vs ih =>
    simp only [insertWord]
    split
    · exact (ih.cons v).trans (List.Perm.swap _ _ _)
    · exact List.Perm.refl _

theorem insertWord_sorted {w : List Int} {vs : List (List Int)} (h : vs.Pairwise (fun a b => wordLess b a = false)) :
    (insertWord w vs).Pairwise (fun a b => wordLess b a = false) := by
  induction vs with
  | nil => simp [insertWord]
  | cons v vs ih =>
    rw [List.pairwise_cons] at h
    simp only [insertWord]
    split
    · rename_i hlt
      rw [List.pairwise_cons]
      refine ⟨fun x hx => ?_, ih h.2⟩
      rcases List.mem_cons.mp ((insertWord_perm w vs).mem_iff.mp hx) with rfl | hx
      · exact wordLess_asymm hlt
      · exact h.1 x hx
    · rename_i hlt
      rw [List.pairwise_cons]
      refine ⟨fun x hx => ?_, List.pairwise_cons.mpr h⟩
      rcases List.mem_cons.mp hx with rfl | hx
      · simpa using hlt
      · cases hw : wordLess x w with
        | false => rfl
        | true =>
          rcases wordLess_neg v hw with h1 | h1
          · rw [h.1 x hx] at h1; cases h1
          · exact absurd h1 hlt

theorem sortWords_perm (ws : List (List Int)) : (ws.foldr insertWord []).Perm ws := by
  induction ws with
  | nil => exact List.Perm.refl _
  | cons w ws ih => exact (insertWord_perm _ _).trans (ih.cons w)

theorem sortWords_sorted (ws : List (List Int)) :
    (ws.foldr insertWord []).Pairwise (fun a b => wordLess b a = false) := by
  induction ws with
  | nil => exact List.Pairwise.nil
  | cons w ws ih => exact insertWord_sorted ih

/-! ### Reading the words -/

theorem word_ok {data : List Atom} {start stop : Int} (h0 : 0 ≤ start) (h1 : start ≤ stop) (h2 : stop ≤ data.length)
    (h3 : stop ≤ 256) : forFrom 0 (stop - start) (fun j (word : List Int) =>
      rd data ((start + j) % 256) >>= fun c => ok (word ++ [c.toInt])) [] = ok (bytesOf data start stop) := by
  unfold forFrom bytesOf
  rw [show (stop - start - 0).toNat = (stop - start).toNat by omega]
  obtain ⟨w, w1, w2⟩ := forN_inv (n := (stop - start).toNat) (body := fun (i : Nat) (word : List Int) =>
      rd data ((start + (0 + (i : Int))) % 256) >>= fun c => ok (word ++ [c.toInt])) (s := [])
    (fun i w => w = ((data.drop start.toNat).take i).map Atom.toInt) (by simp) (by
      intro i hi w hw
      have hk : start.toNat + i < data.length := by omega
      rw [show (start + (0 + (i : Int))) % 256 = ((start.toNat + i : Nat) : Int) by omega, rd_nat_ok hk, bind_ok]
      refine ⟨_, rfl, ?_⟩
      rw [List.take_succ_eq_append_getElem (by rw [List.length_drop]; omega), List.map_append, hw]
      simp)
  rw [w1, w2]

theorem stringWords_ok {data : List Atom} {offsets : List Int} (h : ∀ i (hi : i + 1 < offsets.length),
    0 ≤ offsets[i] ∧ offsets[i] ≤ offsets[i + 1] ∧ offsets[i + 1] ≤ data.length ∧ offsets[i + 1] ≤ 256) :
    stringWords data offsets offsets.length = ok ((List.range (offsets.length - 1)).map (fun i =>
      bytesOf data (offsets[i]?.getD 0) (offsets[i + 1]?.getD 0))) := by
  unfold stringWords
  unfold forFrom
  rw [show ((offsets.length : Int) - 1 - 0).toNat = offsets.length - 1 by omega]
  obtain ⟨ws, w1, w2⟩ := forN_inv (n := offsets.length - 1) (body := fun (i : Nat) (words : List (List Int)) =>
      rd offsets (0 + (i : Int)) >>= fun start => rd offsets (0 + (i : Int) + 1) >>= fun stop =>
      forFrom 0 (stop - start) (fun j word =>
        rd data ((start + j) % 256) >>= fun c => ok (word ++ [c.toInt])) [] >>= fun word =>
      ok (words ++ [word])) (s := [])
    (fun i w => w = (List.range i).map (fun i => bytesOf data (offsets[i]?.getD 0) (offsets[i + 1]?.getD 0)))
    (by simp) (by
      intro i hi w hw
      have hi' : i + 1 < offsets.length := by omega
      obtain ⟨h1, h2, h3, h4⟩ := h i hi'
      rw [show (0 + (i : Int)) = ((i : Nat) : Int) by omega, rd_nat_ok (by omega), bind_ok,
        show ((i : Int) + 1) = ((i + 1 : Nat) : Int) by push_cast; omega, rd_nat_ok hi', bind_ok,
        word_ok h1 h2 h3 h4, bind_ok]
      refine ⟨_, rfl, ?_⟩
      rw [List.range_succ, List.map_append, hw, List.map_singleton, List.getElem?_eq_getElem (by omega),
        List.getElem?_eq_getElem hi']
      rfl)
  rw [← w2]
  exact w1

/-! ### The sorted buffer -/

/-- The end of the first `i` words. -/
def wordEnd (ws : List (List Int)) (i : Nat) : Nat := (ws.take i).flatten.length

theorem wordEnd_zero (ws : List (List Int)) : wordEnd ws 0 = 0 := by simp [wordEnd]

theorem wordEnd_succ {ws : List (List Int)} {i : Nat} (hi : i < ws.length) :
    wordEnd ws (i + 1) = wordEnd ws i + ws[i].length := by
  unfold wordEnd
  rw [List.take_succ_eq_append_getElem hi, List.flatten_append, List.length_append]
  simp

theorem wordEnd_le {ws : List (List Int)} {i : Nat} : wordEnd ws i ≤ ws.flatten.length := by
  unfold wordEnd
  conv_rhs => rw [← List.take_append_drop i ws, List.flatten_append, List.length_append]
  omega

theorem word_getElem? {ws : List (List Int)} {i k : Nat} (hi : i < ws.length) (hk : k < ws[i].length) :
    ws.flatten[wordEnd ws i + k]? = some ws[i][k] := by
  conv_lhs => rw [← List.take_append_drop i ws, List.flatten_append]
  rw [List.getElem?_append_right (by unfold wordEnd; simp),
    show wordEnd (List.take i ws ++ List.drop i ws) i = wordEnd ws i by rw [List.take_append_drop]]
  rw [show wordEnd ws i + k - (List.take i ws).flatten.length = k by unfold wordEnd; omega,
    List.drop_eq_getElem_cons hi, List.flatten_cons, List.getElem?_append_left hk, List.getElem?_eq_getElem hk]

/-- The buffers of the sorted words. -/
structure Packed (ws : List (List Int)) (toptr : List Atom) (offsets : List Int) : Prop where
  size : ws.flatten.length ≤ toptr.length
  data : ∀ i, (h : i < ws.flatten.length) → toptr[i]? = some (.int ws.flatten[i])
  count : offsets.length = ws.length + 1
  ends : ∀ i, i ≤ ws.length → offsets[i]? = some (wordEnd ws i : Int)

theorem sort_asstrings_ok {data : List Atom} {offsets : List Int} (h : ∀ i (hi : i + 1 < offsets.length),
    0 ≤ offsets[i] ∧ offsets[i] ≤ offsets[i + 1] ∧ offsets[i + 1] ≤ data.length ∧ offsets[i + 1] ≤ 256)
    (h0 : 0 < offsets.length) {ws : List (List Int)} (hw : stringWords data offsets offsets.length = ok ws)
    (hl : ws.length + 1 = offsets.length) (hf : ws.flatten.length ≤ data.length) (junk : Atom) :
    ∃ t o, NumpyArray_sort_asstrings (List.replicate data.length junk) data offsets offsets.length (alloc offsets.length)
      = ok (t, o) ∧ Packed (ws.foldr insertWord []) t o := by
  unfold NumpyArray_sort_asstrings
  rw [hw, bind_ok]
  dsimp only
  generalize hv : ws.foldr insertWord [] = vs
  have hp : vs.Perm ws := hv ▸ sortWords_perm ws
  have hpf : vs.flatten.length = ws.flatten.length := hp.flatten.length_eq
  have hpl := hp.length_eq
  obtain ⟨t, t1, t2, t3⟩ := forN_inv (n := vs.flatten.length) (body := fun (k : Nat) (toptr : List Atom) =>
      rd vs.flatten (k : Int) >>= fun c => wr toptr (k : Int) (Atom.int c)) (s := List.replicate data.length junk)
    (fun i t => t.length = data.length ∧ ∀ k, k < i → (h : k < vs.flatten.length) → t[k]? = some (.int vs.flatten[k]))
    ⟨by simp, by omega⟩ (by
      rintro i hi t ⟨a1, a2⟩
      rw [rd_nat_ok hi, bind_ok, wr_nat_ok (by omega)]
      refine ⟨_, rfl, by simp [a1], ?_⟩
      intro k hk hk'
      by_cases he : k = i
      · subst he; rw [List.getElem?_set_self (by omega)]
      · rw [List.getElem?_set_ne (by omega)]; exact a2 k (by omega) hk')
  rw [t1, bind_ok, show (0 : Int) = ((0 : Nat) : Int) from rfl, wr_nat_ok (by rw [alloc_length]; omega), bind_ok]
  obtain ⟨o, o1, o2, o3⟩ := forN_inv (n := vs.length) (body := fun (o : Nat) (outoffsets : List Int) =>
      rd vs (o : Int) >>= fun r => rd outoffsets (o : Int) >>= fun x =>
      wr outoffsets ((o : Int) + 1) (x + (r.length : Int))) (s := (alloc (offsets.length : Int)).set 0 ((0 : Nat) : Int))
    (fun i o => o.length = offsets.length ∧ ∀ k, k ≤ i → o[k]? = some (wordEnd vs k : Int))
    ⟨by rw [List.length_set, alloc_length], by
      intro k hk
      obtain rfl : k = 0 := by omega
      rw [List.getElem?_set_self (by rw [alloc_length]; omega), wordEnd_zero]⟩ (by
      rintro i hi o ⟨a1, a2⟩
      have ei := a2 i (Nat.le_refl _)
      have hio : i < o.length := by omega
      rw [List.getElem?_eq_getElem hio, Option.some.injEq] at ei
      rw [rd_nat_ok hi, bind_ok, rd_nat_ok hio, bind_ok, ei, show ((i : Int) + 1) = ((i + 1 : Nat) : Int) by push_cast; omega,
        wr_nat_ok (by omega)]
      refine ⟨_, rfl, by simp [a1], ?_⟩
      intro k hk
      by_cases he : k = i + 1
      · subst he
        rw [List.getElem?_set_self (by omega), wordEnd_succ hi]; push_cast; rfl
      · rw [List.getElem?_set_ne (by omega)]; exact a2 k (by omega))
  rw [o1, bind_ok]
  exact ⟨t, o, rfl, by omega, fun i hi => t3 i hi hi, by omega, o3⟩

/-! ### The number of different words -/

theorem words_differ {α : Type} [DecidableEq α] {t : List α} {s b n : Nat} (h1 : s + n ≤ t.length) (h2 : b + n ≤ t.length) :
    ∃ d, forFrom 0 (n : Int) (fun k differ =>
      rd t ((s : Int) + k) >>= fun x => rd t ((b : Int) + k) >>= fun y => ok (differ || decide (x ≠ y))) false = ok d ∧
      (d = false ↔ ∀ k, k < n → t[s + k]? = t[b + k]?) := by
  unfold forFrom
  rw [show ((n : Int) - 0).toNat = n by omega]
  obtain ⟨d, d1, d2⟩ := forN_inv (n := n) (body := fun (k : Nat) (differ : Bool) =>
      rd t ((s : Int) + (0 + (k : Int))) >>= fun x => rd t ((b : Int) + (0 + (k : Int))) >>= fun y =>
      ok (differ || decide (x ≠ y))) (s := false)
    (fun i d => d = false ↔ ∀ k, k < i → t[s + k]? = t[b + k]?) (by simp) (by
      intro i hi d hd
      rw [show ((s : Int) + (0 + (i : Int))) = ((s + i : Nat) : Int) by push_cast; omega, rd_nat_ok (by omega), bind_ok,
        show ((b : Int) + (0 + (i : Int))) = ((b + i : Nat) : Int) by push_cast; omega, rd_nat_ok (by omega), bind_ok]
      refine ⟨_, rfl, ?_⟩
      rw [Bool.or_eq_false_iff, hd, decide_eq_false_iff_not, not_not]
      constructor
      · rintro ⟨k1, k2⟩ k hk
        by_cases he : k = i
        · subst he; rw [List.getElem?_eq_getElem (by omega), List.getElem?_eq_getElem (by omega), k2]
        · exact k1 k (by omega)
      · intro hk
        refine ⟨fun k hk' => hk k (by omega), ?_⟩
        have := hk i (by omega)
        rw [List.getElem?_eq_getElem (by omega), List.getElem?_eq_getElem (by omega)] at this
        exact Option.some.inj this)
  exact ⟨d, d1, d2⟩

/-- Copying a word to the left. -/
theorem copy_word {st : UniqueState} {b n index : Nat} (hix : st.index = (index : Int)) (hn : 0 < n) (h1 : b + n ≤ st.toptr.length)
    (h2 : index ≤ b) :
    ∃ t, forFrom (b : Int) ((b + n : Nat) : Int) (fun j (st : UniqueState) =>
        rd st.toptr j >>= fun x => wr st.toptr st.index x >>= fun toptr =>
        ok { st with toptr, index := st.index + 1, start := (b : Int) }) st
        = ok { st with toptr := t, index := ((index + n : Nat) : Int), start := (b : Int) } ∧
      t.length = st.toptr.length ∧ (index = b → t = st.toptr) := by
  unfold forFrom
  rw [show (((b + n : Nat) : Int) - (b : Int)).toNat = n by omega]
  obtain ⟨st', s1, s2, s3, s4, s5, s6, s7, s8⟩ := forN_inv (n := n) (body := fun (i : Nat) (st : UniqueState) =>
      rd st.toptr ((b : Int) + (i : Int)) >>= fun x => wr st.toptr st.index x >>= fun toptr =>
        ok { st with toptr, index := st.index + 1, start := (b : Int) }) (s := st)
    (fun i st' => st'.toptr.length = st.toptr.length ∧ st'.index = ((index + i : Nat) : Int) ∧
      st'.slen = st.slen ∧ st'.counter = st.counter ∧ (0 < i → st'.start = (b : Int)) ∧ (index = b → st'.toptr = st.toptr) ∧ True)
    ⟨rfl, by simpa using hix, rfl, rfl, by omega, fun _ => rfl, trivial⟩ (by
      rintro i hi ⟨t, slen, ix, counter, start⟩ ⟨a1, a2, a3, a4, a5, a6, _⟩
      dsimp only at a1 a2 a3 a4 a5 a6 ⊢
      rw [show ((b : Int) + (i : Int)) = ((b + i : Nat) : Int) by push_cast; rfl, rd_nat_ok (by omega), bind_ok, a2,
        wr_nat_ok (by omega), bind_ok]
      refine ⟨_, rfl, by simp [a1], by push_cast; omega, a3, a4, fun _ => rfl, ?_, trivial⟩
      intro he
      dsimp only
      subst he
      rw [List.set_getElem_self, a6 rfl])
  refine ⟨st'.toptr, ?_, s2, s7⟩
  rw [s1]
  obtain ⟨t, slen, ix, counter, start⟩ := st'
  dsimp only at s3 s4 s5 s6 ⊢
  rw [s3, s4, s5, s6 hn]

theorem unique_strings_ok {ws : List (List Int)} {toptr : List Atom} {offsets : List Int} (hk : Packed ws toptr offsets)
    (hne : ∀ w ∈ ws, w ≠ []) (hs : ws.Pairwise (fun a b => wordLess b a = false)) :
    ∃ n, NumpyArray_unique_strings toptr offsets (ws.length + 1) = ok n ∧ (n = (ws.length : Int) + 1 ↔ ws.Nodup) := by
  unfold NumpyArray_unique_strings
  have main : ∃ st, forFrom 0 (((ws.length + 1 : Nat) : Int) - 1) (fun i (st : UniqueState) =>
    rd offsets (i + 1) >>= fun stop => rd offsets i >>= fun begin =>
    (if stop - begin ≠ st.slen then ok true
    else forFrom 0 (stop - begin) (fun k differ =>
      rd st.toptr (st.start + k) >>= fun x => rd st.toptr (begin + k) >>= fun y =>
      ok (differ || decide (x ≠ y))) false) >>= fun differ =>
    (if differ then
      forFrom begin stop (fun j (st : UniqueState) =>
        rd st.toptr j >>= fun x => wr st.toptr st.index x >>= fun toptr =>
        ok { st with toptr, index := st.index + 1, start := begin }) st >>= fun st =>
      ok { st with counter := st.counter + 1 }
    else ok st) >>= fun st => ok { st with slen := stop - begin })
    { toptr, slen := 0, index := 0, counter := 0, start := 0 } = ok st ∧ (st.counter = (ws.length : Int) ↔ ws.Nodup) := by
    unfold forFrom
    rw [show ((((ws.length + 1 : Nat) : Int) - 1) - 0).toNat = ws.length by omega]
    obtain ⟨st, s1, s2⟩ := forN_inv (n := ws.length) (body := fun (i : Nat) (st : UniqueState) =>
        rd offsets (0 + (i : Int) + 1) >>= fun stop => rd offsets (0 + (i : Int)) >>= fun begin =>
        (if stop - begin ≠ st.slen then ok true
        else forN (stop - begin - 0).toNat (fun k differ =>
          rd st.toptr (st.start + (0 + (k : Int))) >>= fun x => rd st.toptr (begin + (0 + (k : Int))) >>= fun y =>
          ok (differ || decide (x ≠ y))) false) >>= fun differ =>
        (if differ then
          forN (stop - begin).toNat (fun j (st : UniqueState) =>
            rd st.toptr (begin + (j : Int)) >>= fun x => wr st.toptr st.index x >>= fun toptr =>
            ok { st with toptr, index := st.index + 1, start := begin }) st >>= fun st =>
          ok { st with counter := st.counter + 1 }
        else ok st) >>= fun st => ok { st with slen := stop - begin })
      (s := { toptr, slen := 0, index := 0, counter := 0, start := 0 })
      (fun i st => ∃ (start index slen : Nat), st.start = (start : Int) ∧ st.index = (index : Int) ∧ st.slen = (slen : Int) ∧
        st.toptr.length = toptr.length ∧ index ≤ wordEnd ws i ∧ start + slen ≤ wordEnd ws i ∧
        ((ws.take i).Nodup → st.counter = (i : Int) ∧ st.toptr = toptr ∧ index = wordEnd ws i ∧
          (i = 0 ∧ slen = 0 ∨ ∃ j, ∃ _ : j < ws.length, i = j + 1 ∧ start = wordEnd ws j ∧ slen = ws[j].length)) ∧
        (¬ (ws.take i).Nodup → st.counter < (i : Int)))
      ⟨0, 0, 0, rfl, rfl, rfl, rfl, by simp, by simp, fun _ => ⟨rfl, rfl, by simp [wordEnd_zero], .inl ⟨rfl, rfl⟩⟩, fun h => by simp at h⟩ (by
        rintro i hi st ⟨start, index, slen, a1, a2, a3, a4, a5, a6, a7, a8⟩
        have hw : 0 < ws[i].length := List.length_pos_iff.mpr (hne _ (List.getElem_mem hi))
        have eb := hk.ends i (by omega)
        have es := hk.ends (i + 1) (by omega)
        have hle : wordEnd ws (i + 1) ≤ toptr.length := Nat.le_trans wordEnd_le hk.size
        rw [wordEnd_succ hi] at es hle
        have hcnt := hk.count
        rw [List.getElem?_eq_getElem (by omega), Option.some.injEq] at eb es
        rw [show (0 + (i : Int) + 1) = ((i + 1 : Nat) : Int) by push_cast; omega, rd_nat_ok (by omega), bind_ok,
          show (0 + (i : Int)) = ((i : Nat) : Int) by omega, rd_nat_ok (by omega), bind_ok, eb, es]
        have elen : ((wordEnd ws i + ws[i].length : Nat) : Int) - (wordEnd ws i : Int) = (ws[i].length : Int) := by push_cast; omega
        rw [elen, a1, a3]
        -- the comparison
        have hd : ∃ d, (if (ws[i].length : Int) ≠ (slen : Int) then ok true
            else forN ((ws[i].length : Int) - 0).toNat (fun (k : Nat) differ =>
              rd st.toptr ((start : Int) + (0 + (k : Int))) >>= fun x => rd st.toptr ((wordEnd ws i : Int) + (0 + (k : Int))) >>= fun y =>
              ok (differ || decide (x ≠ y))) false) = ok d ∧
            (d = false → slen = ws[i].length) ∧ (slen = ws[i].length → (d = false ↔ ∀ k, k < ws[i].length →
              st.toptr[start + k]? = st.toptr[wordEnd ws i + k]?)) := by
          by_cases he : slen = ws[i].length
          · rw [if_neg (by omega)]
            obtain ⟨d, d1, d2⟩ := words_differ (t := st.toptr) (s := start) (b := wordEnd ws i) (n := ws[i].length)
              (by omega) (by omega)
            exact ⟨d, d1, fun _ => he, fun _ => d2⟩
          · rw [if_pos (by omega)]
            exact ⟨true, rfl, fun h => by simp at h, fun h => absurd h he⟩
        obtain ⟨d, d1, d2, d3⟩ := hd
        rw [d1, bind_ok]
        -- what it says
        have hmean : (ws.take i).Nodup → (d = true ↔ (ws.take (i + 1)).Nodup) := by
          intro hnd
          obtain ⟨_, ht, _, hcase⟩ := a7 hnd
          rcases hcase with ⟨rfl, h0⟩ | ⟨j, hj, rfl, hst, hsl⟩
          · have hdt : d = true := by
              cases d with
              | true => rfl
              | false => have := d2 rfl; omega
            rw [hdt]
            simp only [true_iff]
            rw [Nat.zero_add, List.take_one]
            cases ws with
            | nil => simp at hi
            | cons a l => simp
          · have hdeq : d = false ↔ ws[j] = ws[j + 1] := by
              constructor
              · intro hdf
                have hlen := d2 hdf
                have := (d3 hlen).mp hdf
                rw [ht] at this
                apply List.ext_getElem (by omega)
                intro k k1 k2
                have hq := this k k2
                rw [hst, hk.data _ (Nat.lt_of_lt_of_le (by omega) (wordEnd_le (i := j + 1) (ws := ws))), hk.data _
                  (Nat.lt_of_lt_of_le (by rw [wordEnd_succ hi]; omega) (wordEnd_le (i := j + 1 + 1) (ws := ws)))] at hq
                have q1 := word_getElem? hj k1
                have q2 := word_getElem? hi k2
                rw [List.getElem?_eq_getElem (Nat.lt_of_lt_of_le (by rw [wordEnd_succ hj]; omega) (wordEnd_le (i := j + 1) (ws := ws)))] at q1
                rw [List.getElem?_eq_getElem (Nat.lt_of_lt_of_le (by rw [wordEnd_succ hi]; omega) (wordEnd_le (i := j + 1 + 1) (ws := ws)))] at q2
                simp only [Option.some.injEq, Atom.int.injEq] at hq q1 q2
                rw [← q1, ← q2]; exact hq
              · intro he
                have hlen : slen = ws[j + 1].length := by rw [hsl, he]
                rw [d3 hlen]
                intro k k2
                have k1 : k < ws[j].length := by rw [he]; exact k2
                have b1 : wordEnd ws j + k < ws.flatten.length :=
                  Nat.lt_of_lt_of_le (by rw [wordEnd_succ hj]; omega) (wordEnd_le (i := j + 1) (ws := ws))
                have b2 : wordEnd ws (j + 1) + k < ws.flatten.length :=
                  Nat.lt_of_lt_of_le (by rw [wordEnd_succ hi]; omega) (wordEnd_le (i := j + 1 + 1) (ws := ws))
                have q1 := word_getElem? hj k1
                have q2 := word_getElem? hi k2
                rw [List.getElem?_eq_getElem b1, Option.some.injEq] at q1
                rw [List.getElem?_eq_getElem b2, Option.some.injEq] at q2
                rw [ht, hst, hk.data _ b1, hk.data _ b2, q1, q2]
                simp only [he]
            rw [← Bool.not_eq_false, hdeq]
            constructor
            · intro hne'
              exact nodup_take_succ hs (fun a _ b _ h1 h2 => wordLess_eq h2 h1) hi hnd hne'
            · intro h he
              exact not_nodup_take_succ hi he h
        have hsub : (ws.take (i + 1)).Nodup → (ws.take i).Nodup := fun h =>
          h.sublist (List.take_sublist_take_left (by omega))
        cases hdv : d with
        | true =>
          simp only [if_true]
          obtain ⟨t, t1, t2, t3⟩ := copy_word (st := st) (b := wordEnd ws i) (n := ws[i].length) (index := index) a2 hw (by omega) a5
          unfold forFrom at t1
          rw [elen, Int.toNat_natCast] at t1
          rw [Int.toNat_natCast, t1, bind_ok, bind_ok]
          refine ⟨_, rfl, wordEnd ws i, index + ws[i].length, ws[i].length, rfl, rfl, rfl, t2.trans a4, ?_, ?_, ?_, ?_⟩
          · rw [wordEnd_succ hi]; omega
          · rw [wordEnd_succ hi]
          · intro hnd
            obtain ⟨c1, c2, c3, _⟩ := a7 (hsub hnd)
            refine ⟨by dsimp only; push_cast; omega, by dsimp only; rw [t3 c3, c2], by rw [wordEnd_succ hi, c3], .inr ⟨i, hi, rfl, rfl, rfl⟩⟩
          · intro hnd
            dsimp only
            have : ¬ (ws.take i).Nodup := fun h => hnd ((hmean h).mp hdv)
            have := a8 this
            push_cast; omega
        | false =>
          simp only [Bool.false_eq_true, if_false, bind_ok]
          have hlen := d2 hdv
          refine ⟨_, rfl, start, index, ws[i].length, a1, a2, rfl, a4, ?_, ?_, ?_, ?_⟩
          · rw [wordEnd_succ hi]; omega
          · rw [wordEnd_succ hi]; omega
          · intro hnd
            have := (hmean (hsub hnd)).mpr hnd
            rw [hdv] at this; simp at this
          · intro _
            dsimp only
            by_cases h : (ws.take i).Nodup
            · have := (a7 h).1; push_cast; omega
            · have := a8 h; push_cast; omega)
    refine ⟨st, s1, ?_⟩
    obtain ⟨_, _, _, _, _, _, _, _, _, h1, h2⟩ := s2
    rw [List.take_length] at h1 h2
    constructor
    · intro h
      by_contra hc
      have := h2 hc
      omega
    · intro h; exact (h1 h).1
  obtain ⟨st, s1, s2⟩ := main
  exact ⟨st.counter + 1, by rw [s1, bind_ok], by rw [← s2]; omega⟩

namespace Content

theorem bytesOf_length {data : List Atom} {start stop : Int} (h : start ≤ stop) (h0 : 0 ≤ start) (h1 : stop ≤ data.length) :
    (bytesOf data start stop).length = (stop - start).toNat := by
  unfold bytesOf
  simp only [List.length_map, List.length_take, List.length_drop]
  omega

/-- A ListOffsetArray of strings. -/
theorem unique_text {f : Nat} {p q : Params} {offsets : List Int} {data : List Atom}
    (hc : (listOffset p offsets (numpy q .uint8 data)).Good) (hp : p.arr = .string ∨ p.arr = .bytestring)
    (hne : ∀ i, i + 1 < offsets.length → Spec.text ((listOffset p offsets (numpy q .uint8 data)).valD i) ≠ [])
    (hoff : ∀ x ∈ offsets, x ≤ 256) :
    ∃ b, isUniqueNext (f + 1) none (listOffset p offsets (numpy q .uint8 data)) = ok b ∧
      (b = true ↔ (((listOffset p offsets (numpy q .uint8 data)).seg 0 (offsets.length - 1)).map Spec.text).Nodup) := by
  obtain ⟨g1, g2, g3⟩ := good_listOffset.mp hc
  have etext : ∀ i, i + 1 < offsets.length → bytesOf data (offsets[i]?.getD 0) (offsets[i + 1]?.getD 0)
      = Spec.text ((listOffset p offsets (numpy q .uint8 data)).valD i) := by
    intro i hi
    have := bytesOf_text hc hi
    unfold makeStarts makeStops at this
    rw [List.getElem?_take, if_pos (by omega), List.getElem?_drop, Nat.add_comm 1 i] at this
    exact this
  have hb : ∀ i (hi : i + 1 < offsets.length), 0 ≤ offsets[i] ∧ offsets[i] ≤ offsets[i + 1] ∧
      offsets[i + 1] ≤ data.length ∧ offsets[i + 1] ≤ 256 := by
    intro i hi
    rcases g3 i hi with he | ⟨h1, h2, h3⟩
    · exfalso
      refine hne i hi ?_
      rw [← etext i hi, List.getElem?_eq_getElem (by omega), List.getElem?_eq_getElem hi, ← he]
      unfold bytesOf
      simp
    · exact ⟨h1, h2, h3, hoff _ (List.getElem_mem hi)⟩
  have hw := stringWords_ok hb
  generalize hws : (List.range (offsets.length - 1)).map (fun i =>
      bytesOf data (offsets[i]?.getD 0) (offsets[i + 1]?.getD 0)) = ws at hw
  have hseg : ((listOffset p offsets (numpy q .uint8 data)).seg 0 (offsets.length - 1)).map Spec.text = ws := by
    rw [← hws]
    unfold seg
    rw [List.map_map]
    apply List.map_congr_left
    intro i hi
    rw [List.mem_range] at hi
    rw [etext i (by omega)]
    simp
  have hlen : ws.length + 1 = offsets.length := by rw [← hws]; simp; omega
  rw [hseg]
  have hwne : ∀ w ∈ ws, w ≠ [] := by
    rw [← hws]
    intro w hw
    obtain ⟨i, hi, rfl⟩ := List.mem_map.mp hw
    rw [List.mem_range] at hi
    rw [etext i (by omega)]
    exact hne i (by omega)
  have htot : ∀ n (hn : n < offsets.length), ((ws.take n).flatten.length : Int) = offsets[n] - offsets[0] := by
    intro n
    induction n with
    | zero => intro _; simp
    | succ n ih =>
      intro hn
      have hn' : n < ws.length := by omega
      obtain ⟨h1, h2, h3, h4⟩ := hb n hn
      rw [List.take_succ_eq_append_getElem hn', List.flatten_append, List.length_append]
      have := ih (by omega)
      have hl : ws[n].length = (offsets[n + 1] - offsets[n]).toNat := by
        simp only [← hws, List.getElem_map, List.getElem_range]
        rw [List.getElem?_eq_getElem (by omega), List.getElem?_eq_getElem hn]
        exact bytesOf_length h2 h1 h3
      simp only [List.flatten_cons, List.flatten_nil, List.append_nil]
      push_cast
      rw [this, hl]
      omega
  have hf : ws.flatten.length ≤ data.length := by
    rcases Nat.eq_zero_or_pos ws.length with h0 | h0
    · rw [List.eq_nil_of_length_eq_zero h0]; simp
    · have h1 := htot ws.length (by omega)
      rw [List.take_length] at h1
      have h2 := hb 0 (by omega)
      have h3 := hb (ws.length - 1) (by omega)
      simp only [show ws.length - 1 + 1 = ws.length by omega] at h3
      omega
  have key : ∃ b, (asUniqueStrings .uint8 data offsets >>= fun outlength =>
      ok (decide (outlength = (((listOffset p offsets (numpy q .uint8 data)).len : Nat) : Int)))) = ok b ∧ (b = true ↔ ws.Nodup) := by
    unfold asUniqueStrings
    rw [if_neg (by simp)]
    have hL : (listOffset p offsets (numpy q .uint8 data)).len = offsets.length - 1 := rfl
    generalize (listOffset p offsets (numpy q .uint8 data)).len = L at hL ⊢
    by_cases h0 : data.length = 0
    · rw [if_pos h0, bind_ok, bind_ok]
      refine ⟨_, rfl, ?_⟩
      have : ws = [] := by
        rcases ws with _ | ⟨w, ws⟩
        · rfl
        · exfalso
          have := hwne w (by simp)
          rw [List.flatten_cons, List.length_append] at hf
          exact this (List.eq_nil_of_length_eq_zero (by omega))
      rw [decide_eq_true_iff, this]
      simp only [List.nodup_nil, iff_true]
      rw [this] at hlen
      simp only [List.length_nil] at hlen
      omega
    · rw [if_neg h0]
      obtain ⟨t, o, t1, t2⟩ := sort_asstrings_ok hb (by omega) hw hlen hf (.int (-559038737))
      have hpm := sortWords_perm ws
      obtain ⟨n, n1, n2⟩ := unique_strings_ok t2 (fun w hw => hwne w (hpm.mem_iff.mp hw)) (sortWords_sorted ws)
      rw [hpm.length_eq] at n1 n2
      rw [t1, bind_ok]
      dsimp only
      rw [hlen] at n1
      rw [n1, bind_ok, bind_ok]
      refine ⟨_, rfl, ?_⟩
      rw [decide_eq_true_iff, ← hpm.nodup_iff, ← n2]
      omega
  obtain ⟨b, b1, b2⟩ := key
  refine ⟨b, ?_, b2⟩
  simp only [isUniqueNext]
  rw [if_pos hp]
  exact b1

/-- A string array. -/
theorem isUnique_text {f : Nat} {c : Content} (hn : Spec.Strings 1 c) (hc : c.Good)
    (hne : ∀ v ∈ c.seg 0 c.len, Spec.text v ≠ [])
    (hoff : ∀ p offs d, c = listOffset p offs d → ∀ x ∈ offs, x ≤ 256)
    (htot : ((c.seg 0 c.len).map Spec.text).flatten.length ≤ 256) :
    ∃ b, isUniqueNext (f + 2) none c = ok b ∧ (b = true ↔ ((c.seg 0 c.len).map Spec.text).Nodup) := by
  have hoffset : ∀ (p : Params) (offs : List Int) (d : Content) (f : Nat), (listOffset p offs d).Good → Spec.Chars p d →
      (∀ x ∈ offs, x ≤ 256) → (listOffset p offs d).seg 0 (offs.length - 1) = c.seg 0 c.len →
      ∃ b, isUniqueNext (f + 1) none (listOffset p offs d) = ok b ∧ (b = true ↔ ((c.seg 0 c.len).map Spec.text).Nodup) := by
    intro p offs d f h1 h2 h3 h4
    have hp := (chars_layout h1 h2).2
    obtain ⟨q, data, rfl, _⟩ := h2
    rw [← h4]
    refine unique_text h1 hp ?_ h3
    intro i hi
    apply hne
    rw [← h4, List.mem_iff_getElem]
    exact ⟨i, by simp; omega, by rw [seg_getElem, Nat.zero_add]⟩
  have hother : ∀ (p : Params) (d : Content), c.params = p → c.children = [d] → Spec.Chars p d → c.isListNode = true →
      (isUniqueNext (f + 2) none c = c.toListOffset >>= fun next => isUniqueNext (f + 1) none next) →
      ∃ b, isUniqueNext (f + 2) none c = ok b ∧ (b = true ↔ ((c.seg 0 c.len).map Spec.text).Nodup) := by
    intro p d hcp hch h2 hl heq
    obtain ⟨offs, d', e1, h3, e3⟩ := listParts_ok hc hl
    have hd' : Spec.Chars p d' := by
      obtain ⟨e, he, hg⟩ := h3.src
      rw [hch, List.mem_singleton] at he
      subst he
      obtain ⟨q, data, rfl, hk⟩ := h2
      obtain ⟨⟨q', data', rfl, hk'⟩, _⟩ := family_gathered (k := .inr q.arr) ⟨q, data, rfl, rfl⟩
        (hc.child (by rw [hch]; simp)) hg
      exact ⟨q', data', rfl, by rw [hk']; exact hk⟩
    have hlens : ∀ i, i < c.len → (Spec.text (c.valD i)).length = c.lens i := by
      intro i hi
      obtain ⟨q, data, rfl, _⟩ := hd'
      have hb := h3.bound
      have hm := sumTo_mono (f := c.lens) (show i + 1 ≤ c.len by omega)
      rw [sumTo_succ] at hm
      simp only [len] at hb
      rw [h3.vals i hi]
      unfold Spec.text
      rw [items_wrapList, seg_numpy (by omega), present_atoms, List.length_map, part_length (by omega)]
    have hsum : ∀ n, n ≤ c.len → ((c.seg 0 n).map Spec.text).flatten.length = sumTo c.lens n := by
      intro n
      induction n with
      | zero => intro _; simp [seg, sumTo]
      | succ n ih =>
        intro hn
        rw [sumTo_succ, ← ih (by omega), ← hlens n (by omega)]
        unfold seg
        rw [List.range_succ, List.map_append, List.map_append, List.flatten_append, List.length_append]
        simp
    have hgood : (listOffset p offs d').Good := by
      rw [h3.offs_eq]; exact good_offsTo h3.good h3.bound
    rw [heq]
    unfold toListOffset
    rw [e1, bind_ok, bind_ok, hcp]
    refine hoffset p offs d' f hgood hd' ?_ ?_
    · rw [h3.offs_eq]
      intro x hx
      obtain ⟨i, hi, rfl⟩ := List.mem_iff_getElem.mp hx
      rw [offsTo_getElem]
      have := sumTo_mono (f := c.lens) (show i ≤ c.len by simp at hi; omega)
      have := hsum c.len (Nat.le_refl _)
      omega
    · rw [h3.offs_eq, offsTo_length, Nat.add_sub_cancel]
      refine seg_congr (N := c.len) (by omega) ?_
      intro i hi
      rw [valD_offsTo h3.good h3.bound hi, h3.vals i hi, hcp]
  cases hn with
  | regularText h => exact hother _ _ rfl rfl h rfl rfl
  | listArrayText h => exact hother _ _ rfl rfl h rfl rfl
  | listOffsetText h => exact hoffset _ _ _ (f + 1) hc h (hoff _ _ _ rfl) rfl
  | regular _ h => cases h
  | listArray _ h => cases h
  | listOffset _ _ _ h => cases h

end Content

end Awk

namespace Awk.Content
open R

/-! ### Records -/

theorem unique_fold {rec : Content → R Bool} : ∀ {cs : List Content} {k r : Int}, 0 ≤ k →
    foldR (fun (count : Int) c => if count = -1 then ok count else rec c >>= fun u =>
      ok (if !u then count + 1 else if count = 0 then -1 else count)) k cs = ok r →
    (∀ c ∈ cs, rec c ≠ ok true) → r = k + cs.length
  | [], k, r, _, h, _ => by
    simp only [foldR, ok.injEq] at h
    simp [h]
  | c :: cs, k, r, hk, h, hc => by
    simp only [foldR] at h
    rw [if_neg (by omega), R.bind_assoc] at h
    obtain ⟨u, hu, h⟩ := bind_eq_ok.mp h
    have : u = false := by
      cases u with
      | false => rfl
      | true => exact absurd hu (hc c (by simp))
    subst this
    rw [bind_ok] at h
    simp only [Bool.not_false, if_true] at h
    rw [unique_fold (by omega) h (fun d hd => hc d (by simp [hd]))]
    simp only [List.length_cons]
    push_cast; omega

/-- The values of `PlainNumbers` contents. -/
theorem plain_values {dt : DType} : ∀ {c : Content}, Spec.PlainNumbers dt c → c.Good → ∀ i, i < c.len →
    c.valD i = .null ∨ ∃ a, c.valD i = .atom a := by
  intro c h
  induction h with
  | numpy => intro _ i hi; exact .inr ⟨_, valD_numpy hi⟩
  | empty => intro _ i hi; simp [len] at hi
  | indexed h ih =>
    intro hc i hi
    obtain ⟨g1, g2⟩ := good_indexed.mp hc
    rw [valD_indexed hc hi]
    have := g2 i hi
    exact ih g1 _ (by omega)
  | indexedOption h ih =>
    intro hc i hi
    obtain ⟨g1, g2⟩ := good_indexedOption.mp hc
    rw [valD_indexedOption hc hi]
    split
    · exact .inl rfl
    · have := g2 i hi
      exact ih g1 _ (by omega)

theorem present_nodup : ∀ {vs : List Val}, (∀ v ∈ vs, ∃ a, v = .atom a) → (Spec.present vs).Nodup → vs.Nodup := by
  intro vs h hn
  have : vs = (Spec.present vs).map Val.atom := by
    clear hn
    induction vs with
    | nil => rfl
    | cons v vs ih =>
      obtain ⟨a, rfl⟩ := h v (by simp)
      have := ih (fun w hw => h w (by simp [hw]))
      unfold Spec.present at this ⊢
      simp only [List.filterMap_cons, List.map_cons]
      rw [← this]
  rw [this]
  exact hn.map (fun a b h => by simpa using h)

theorem mkRecord_inj {keys : Option (List String)} {xs ys : List Val} (hl : xs.length = ys.length)
    (hk : ∀ ks, keys = some ks → ks.length = xs.length) (h : mkRecord keys xs = mkRecord keys ys) : xs = ys := by
  unfold mkRecord at h
  cases keys with
  | none => simpa using h
  | some ks =>
    simp only [Val.record.injEq] at h
    have hk := hk ks rfl
    have h1 := congrArg (List.map Prod.snd) h
    rw [List.map_snd_zip (by omega), List.map_snd_zip (by omega)] at h1
    exact h1

end Awk.Content
