import Verif.Lemmas.Partition

namespace Awk
open R Spec

attribute [-simp] List.length_flatten

theorem drop_length_add (A B : List α) (n : Nat) : (A ++ B).drop (A.length + n) = B.drop n := by
  rw [List.drop_append, List.drop_of_length_le (by omega), List.nil_append, Nat.add_sub_cancel_left]

namespace PArr

/-- The read cursor (`partitionid`, `index`) of `repartition` stands at position `c` of the
unpartitioned array. -/
structure Cursor (p : PArr α) (k : Nat) (ix c : Nat) : Prop where
  le : k ≤ p.parts.length
  pos : (c : Int) = p.base k + ix
  inside : ∀ h : k < p.parts.length, ix ≤ (p.parts[k]).length
  fin : k = p.parts.length → ix = 0

theorem Cursor.lt {p : PArr α} {k ix c : Nat} (h : Cursor p k ix c)
    (hc : c < p.parts.flatten.length) : k < p.parts.length := by
  rcases Nat.lt_or_ge k p.parts.length with h1 | h1
  · exact h1
  · have h2 := p.base_all h1
    have h3 := h.pos
    omega

theorem piece_eq {p : PArr α} {k ix c n : Nat} (hk : k < p.parts.length) (h : Cursor p k ix c)
    (hn : ix + n ≤ (p.parts[k]).length) :
    ((p.parts[k]).drop ix).take n = (p.parts.flatten.drop c).take n := by
  have hb : p.base k = ((p.parts.take k).flatten.length : Nat) := rfl
  have hc : c = (p.parts.take k).flatten.length + ix := by have := h.pos; omega
  have e : p.parts = p.parts.take k ++ p.parts[k] :: p.parts.drop (k + 1) := by
    rw [← List.drop_eq_getElem_cons hk, List.take_append_drop]
  conv_rhs => rw [e]
  rw [List.flatten_append, List.flatten_cons, hc, drop_length_add]
  rw [List.drop_append, List.take_append_of_le_length (by simp; omega)]

theorem range_full (src : List α) {ix : Nat} (h : ix ≤ src.length) :
    Awk.getitem_range_nowrap src ix src.length = ok (src.drop ix) := by
  unfold Awk.getitem_range_nowrap
  rw [if_pos (by omega)]
  simp only [Int.toNat_natCast]
  rw [List.take_of_length_le (by simp)]

theorem range_part (src : List α) {ix n : Nat} (h : ix + n ≤ src.length) :
    Awk.getitem_range_nowrap src ix (ix + n) = ok ((src.drop ix).take n) := by
  unfold Awk.getitem_range_nowrap
  rw [if_pos (by omega)]
  have : ((ix : Int) + n - ix).toNat = n := by omega
  rw [this]; simp

theorem fillOne_some {p : PArr α} (len : Nat) (fuel : Nat) (d : List α) (k ix c : Nat)
    (hcur : Cursor p k ix c) (hd : d.length ≤ len)
    (hN : c + (len - d.length) ≤ p.parts.flatten.length)
    (hfuel : p.parts.length - k + 2 ≤ fuel) :
    ∃ k' ix', fillOne p len fuel (some d) k ix
        = ok (d ++ (p.parts.flatten.drop c).take (len - d.length), ((k' : Nat) : Int), ((ix' : Nat) : Int)) ∧
      Cursor p k' ix' (c + (len - d.length)) := by
  induction fuel generalizing d k ix c with
  | zero => omega
  | succ fuel ih =>
    unfold fillOne
    by_cases hlt : d.length < len
    · have hcond : decide ((d.length : Int) < (len : Int)) = true := by simpa using hlt
      simp only [hcond, if_true]
      have hk : k < p.parts.length := hcur.lt (by omega)
      rw [rd_nat_ok hk, bind_ok]
      have hin := hcur.inside hk
      by_cases hav : (p.parts[k]).length - ix ≤ len - d.length
      · rw [if_pos (by omega), range_full _ hin, bind_ok]
        have hb := p.base_succ hk
        have hpos := hcur.pos
        have hcur' : Cursor p (k + 1) 0 (c + ((p.parts[k]).length - ix)) := by
          refine ⟨by omega, ?_, fun _ => by omega, fun _ => rfl⟩
          push_cast; omega
        have hpiece : (p.parts[k]).drop ix
            = (p.parts.flatten.drop c).take ((p.parts[k]).length - ix) := by
          rw [← piece_eq hk hcur (n := (p.parts[k]).length - ix) (by omega),
            List.take_of_length_le (by simp)]
        obtain ⟨k', ix', h1, h2⟩ := ih (d ++ (p.parts[k]).drop ix) (k + 1) 0 _ hcur'
          (by simp; omega) (by simp; omega) (by omega)
        refine ⟨k', ix', ?_, ?_⟩
        · have e0 : ((0 : Nat) : Int) = 0 := rfl
          rw [e0] at h1
          push_cast at h1
          rw [h1]
          congr 2
          rw [List.append_assoc]
          congr 1
          rw [hpiece]
          have e : len - d.length = ((p.parts[k]).length - ix)
              + (len - (d ++ (p.parts.flatten.drop c).take ((p.parts[k]).length - ix)).length) := by
            rw [← hpiece]; simp; omega
          conv_rhs => rw [e, List.take_add, List.drop_drop]
        · have e : c + (len - d.length) = c + ((p.parts[k]).length - ix)
              + (len - (d ++ (p.parts[k]).drop ix).length) := by simp; omega
          rw [e]; exact h2
      · rw [if_neg (by omega)]
        have e1 : (len : Int) - (d.length : Int) = ((len - d.length : Nat) : Int) := by omega
        rw [e1, range_part _ (by omega), bind_ok]
        have hpos := hcur.pos
        have hcur' : Cursor p k (ix + (len - d.length)) (c + (len - d.length)) := by
          refine ⟨by omega, ?_, fun _ => by omega, fun _ => by omega⟩
          push_cast; omega
        rw [piece_eq hk hcur (by omega)]
        have hl2 : ((p.parts.flatten.drop c).take (len - d.length)).length = len - d.length := by
          simp; omega
        cases fuel with
        | zero => omega
        | succ fuel =>
          unfold fillOne
          have hcond2 : decide (((d ++ (p.parts.flatten.drop c).take (len - d.length)).length : Int) < (len : Int)) = false := by
            rw [decide_eq_false_iff_not, List.length_append, hl2]; omega
          simp only [hcond2]
          exact ⟨k, ix + (len - d.length), by push_cast; rfl, hcur'⟩
    · have hcond : decide ((d.length : Int) < (len : Int)) = false := by simpa using hlt
      simp only [hcond]
      have e : len - d.length = 0 := by omega
      rw [e]
      exact ⟨k, ix, by simp, by simpa using hcur⟩

/-- One new partition of length `len` is filled with the next `len` elements. -/
theorem fillOne_none {p : PArr α} (len : Nat) (k ix c : Nat) (hk : k < p.parts.length)
    (hcur : Cursor p k ix c) (hN : c + len ≤ p.parts.flatten.length) :
    ∃ k' ix', fillOne p len (p.parts.length + 2) none k ix
        = ok ((p.parts.flatten.drop c).take len, ((k' : Nat) : Int), ((ix' : Nat) : Int)) ∧
      Cursor p k' ix' (c + len) := by
  unfold fillOne
  simp only [if_true]
  rw [rd_nat_ok hk, bind_ok]
  have hin := hcur.inside hk
  have hpos := hcur.pos
  by_cases hav : (p.parts[k]).length - ix ≤ len
  · rw [if_pos (by omega), range_full _ hin, bind_ok]
    have hb := p.base_succ hk
    have hcur' : Cursor p (k + 1) 0 (c + ((p.parts[k]).length - ix)) := by
      refine ⟨by omega, ?_, fun _ => by omega, fun _ => rfl⟩
      push_cast; omega
    have hpiece : (p.parts[k]).drop ix
        = (p.parts.flatten.drop c).take ((p.parts[k]).length - ix) := by
      rw [← piece_eq hk hcur (n := (p.parts[k]).length - ix) (by omega),
        List.take_of_length_le (by simp)]
    obtain ⟨k', ix', h1, h2⟩ := fillOne_some len (p.parts.length + 1) ((p.parts[k]).drop ix) (k + 1) 0 _ hcur'
      (by simp; omega) (by simp; omega) (by omega)
    refine ⟨k', ix', ?_, ?_⟩
    · have e0 : ((0 : Nat) : Int) = 0 := rfl
      rw [e0] at h1
      push_cast at h1
      rw [h1]
      congr 2
      rw [hpiece]
      have e : len = ((p.parts[k]).length - ix)
          + (len - ((p.parts.flatten.drop c).take ((p.parts[k]).length - ix)).length) := by
        rw [← hpiece]; simp; omega
      conv_rhs => rw [e, List.take_add, List.drop_drop]
    · have e : c + len = c + ((p.parts[k]).length - ix)
          + (len - ((p.parts[k]).drop ix).length) := by simp; omega
      rw [e]; exact h2
  · rw [if_neg (by omega), range_part _ (by omega), bind_ok]
    have hcur' : Cursor p k (ix + len) (c + len) := by
      refine ⟨by omega, ?_, fun _ => by omega, fun _ => by omega⟩
      push_cast; omega
    rw [piece_eq hk hcur (by omega)]
    have hl2 : ((p.parts.flatten.drop c).take len).length = len := by simp; omega
    unfold fillOne
    have hcond2 : decide ((((p.parts.flatten.drop c).take len).length : Int) < (len : Int)) = false := by
      rw [decide_eq_false_iff_not, hl2]; omega
    simp only [hcond2]
    exact ⟨k, ix + len, by push_cast; rfl, hcur'⟩

theorem repartitionLoop_ok {p : PArr α} (stops : List Int) (prev k ix : Nat)
    (hk : k < p.parts.length) (hcur : Cursor p k ix prev)
    (hmono : (((prev : Nat) : Int) :: stops).Pairwise (· ≤ ·))
    (hle : ∀ s ∈ stops, s ≤ p.parts.flatten.length)
    (hlast : ∀ s ∈ stops.dropLast, s < p.parts.flatten.length) :
    ∃ parts, repartitionLoop p stops prev k ix = ok parts ∧
      runningTotals prev parts = stops ∧
      ∀ e, (((prev : Nat) : Int) :: stops).getLast? = some ((e : Nat) : Int) →
        parts.flatten = (p.parts.flatten.drop prev).take (e - prev) := by
  induction stops generalizing prev k ix with
  | nil =>
    refine ⟨[], rfl, rfl, ?_⟩
    intro e he
    simp at he; simp [← he]
  | cons s rest ih =>
    rw [List.pairwise_cons] at hmono
    have hs1 := hmono.1 s List.mem_cons_self
    have hs2 := hle s List.mem_cons_self
    obtain ⟨s, rfl⟩ : ∃ n : Nat, s = (n : Int) := ⟨s.toNat, by omega⟩
    have elen : (s : Int) - prev = ((s - prev : Nat) : Int) := by omega
    obtain ⟨k', ix', h1, h2⟩ := fillOne_none (p := p) (s - prev) k ix prev hk hcur (by omega)
    have es : prev + (s - prev) = s := by omega
    rw [es] at h2
    unfold repartitionLoop
    rw [elen, h1]
    simp only [bind_ok]
    have hseg : ((p.parts.flatten.drop prev).take (s - prev)).length = s - prev := by simp; omega
    by_cases hr : rest = []
    · subst hr
      refine ⟨[(p.parts.flatten.drop prev).take (s - prev)], by simp [repartitionLoop], ?_, ?_⟩
      · simp only [runningTotals, hseg]; congr 1; omega
      · intro e he
        simp at he
        simp [he]
    · have hk' : k' < p.parts.length := by
        apply h2.lt
        have := hlast s (by
          cases rest with
          | nil => exact absurd rfl hr
          | cons r rs => simp)
        omega
      obtain ⟨parts, hp1, hp2, hp3⟩ := ih s k' ix' hk' h2 hmono.2
        (fun x hx => hle x (List.mem_cons_of_mem _ hx))
        (fun x hx => hlast x (by
          cases rest with
          | nil => exact absurd rfl hr
          | cons r rs => simp only [List.dropLast_cons₂]; exact List.mem_cons_of_mem _ hx))
      refine ⟨(p.parts.flatten.drop prev).take (s - prev) :: parts, by rw [hp1]; rfl, ?_, ?_⟩
      · simp only [runningTotals, hseg]
        have : (prev : Int) + ((s - prev : Nat) : Int) = s := by omega
        rw [this, hp2]
      · intro e he
        have he' : (((s : Nat) : Int) :: rest).getLast? = some ((e : Nat) : Int) := by
          rw [← he]; cases rest <;> simp
        have hse : s ≤ e := by
          have hmem : ((e : Nat) : Int) ∈ ((s : Nat) : Int) :: rest := List.mem_of_getLast? he'
          rcases List.mem_cons.mp hmem with h | h
          · omega
          · have := (List.pairwise_cons.mp hmono.2).1 _ h; omega
        rw [List.flatten_cons, hp3 e he']
        have e2 : e - prev = (s - prev) + (e - s) := by omega
        rw [e2, List.take_add, List.drop_drop, es]

end PArr
end Awk
