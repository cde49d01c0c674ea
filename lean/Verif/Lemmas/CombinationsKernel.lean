import Verif.Model.Combinations
import Verif.Lemmas.Choose
import Verif.Lemmas.Loops

/-!
# The combination kernels
-/

namespace Awk

open R Spec

/-- `L` successive integers. -/
def ints (x : Int) (L : Nat) : List Int := (List.range L).map (fun (d : Nat) => x + d)

@[simp] theorem ints_zero (x : Int) : ints x 0 = [] := rfl

theorem ints_succ (x : Int) (L : Nat) : ints x (L + 1) = x :: ints (x + 1) L := by
  unfold ints
  rw [List.range_succ_eq_map, List.map_cons, List.map_map]
  congr 1
  · simp
  · apply List.map_congr_left
    intro d _
    simp only [Function.comp, Nat.succ_eq_add_one]; omega

@[simp] theorem ints_length (x : Int) (L : Nat) : (ints x L).length = L := by simp [ints]

theorem mem_ints {x y : Int} {L : Nat} (h : y ∈ ints x L) : x ≤ y ∧ y < x + L := by
  unfold ints at h
  obtain ⟨d, hd, rfl⟩ := List.mem_map.mp h
  have := List.mem_range.mp hd
  omega

/-- The combinations written so far. -/
structure Filled (n total : Nat) (done : List (List Int)) (s : CombState) : Prop where
  count : s.tocarry.length = n
  pos : ∀ k, k < n → s.toindex[k]? = some (done.length : Int)
  room : n ≤ s.fromindex.length
  row : ∀ k, k < n → ∃ b, s.tocarry[k]? = some b ∧ b.length = total ∧
    ∀ i (hi : i < done.length), b[i]? = done[i][k]?

theorem Filled.congr {n total : Nat} {done : List (List Int)} {s s' : CombState}
    (h : Filled n total done s) (h1 : s'.tocarry = s.tocarry) (h2 : s'.toindex = s.toindex)
    (h3 : n ≤ s'.fromindex.length) : Filled n total done s' :=
  ⟨by rw [h1]; exact h.count, by rw [h2]; exact h.pos, h3, by rw [h1]; exact h.row⟩

theorem combinations_reset_ok {n j : Nat} {repl : Bool} {fi : List Int} {x : Int} (hj : j < n)
    (hl : n ≤ fi.length) (hx : fi[j]? = some x) :
    ∃ fi', combinations_reset n repl j fi = ok fi' ∧ fi'.length = fi.length ∧
      (∀ k, k ≤ j → fi'[k]? = fi[k]?) ∧
      ∀ k, j < k → k < n → fi'[k]? = some (if repl then x else x + ((k : Int) - j)) := by
  unfold combinations_reset
  obtain ⟨fi', h1, h2, h3, h4⟩ := forN_inv (n := n - (j + 1)) (s := fi)
    (body := fun i fromindex => rd fromindex (j : Int) >>= fun x =>
      wr fromindex ((j + 1 + i : Nat) : Int)
        (if repl then x else x + (((j + 1 + i : Nat) : Int) - (j : Int))))
    (fun m fi' => fi'.length = fi.length ∧ (∀ k, k ≤ j → fi'[k]? = fi[k]?) ∧
      ∀ k, j < k → k < j + 1 + m → fi'[k]? = some (if repl then x else x + ((k : Int) - j)))
    ⟨rfl, fun _ _ => rfl, fun k h1 h2 => by omega⟩ (by
      rintro i hi fi' ⟨h1, h2, h3⟩
      refine ⟨fi'.set (j + 1 + i) (if repl then x else x + (((j + 1 + i : Nat) : Int) - (j : Int))),
        ?_, by simpa using h1, ?_, ?_⟩
      · have hb : j < fi'.length := by omega
        rw [rd_nat_ok hb, bind_ok]
        have : fi'[j] = x := by
          have := h2 j (Nat.le_refl _)
          rw [hx, List.getElem?_eq_getElem hb] at this
          exact Option.some.inj this
        rw [this, wr_nat_ok (by omega)]
      · intro k hk
        rw [List.getElem?_set_ne (by omega)]; exact h2 k hk
      · intro k hk hk'
        by_cases he : k = j + 1 + i
        · subst he
          rw [List.getElem?_set_self (by omega)]
        · rw [List.getElem?_set_ne (by omega)]; exact h3 k hk (by omega))
  exact ⟨fi', h1, h2, h3, fun k hk hk' => h4 k hk (by omega)⟩

theorem combinations_write_ok {n total : Nat} {done : List (List Int)} {s : CombState}
    {t : List Int} (h : Filled n total done s) (ht : t.length = n)
    (hf : ∀ k, k < n → s.fromindex[k]? = t[k]?) (hroom : done.length < total) :
    ∃ s', combinations_write n s = ok s' ∧ Filled n total (done ++ [t]) s' ∧
      s'.fromindex = s.fromindex := by
  unfold combinations_write
  obtain ⟨s', h1, h2, h3, h4, h5, h6, h7⟩ := forN_inv (n := n) (s := s)
    (body := fun k s =>
      rd s.tocarry (k : Int) >>= fun buffer => rd s.toindex (k : Int) >>= fun position =>
      rd s.fromindex (k : Int) >>= fun x => wr buffer position x >>= fun buffer =>
      wr s.tocarry (k : Int) buffer >>= fun tocarry =>
      wr s.toindex (k : Int) (position + 1) >>= fun toindex =>
      ok ({ s with tocarry := tocarry, toindex := toindex } : CombState))
    (fun m s' => s'.fromindex = s.fromindex ∧ s'.tocarry.length = n ∧
      (∀ k, k < m → s'.toindex[k]? = some ((done.length + 1 : Nat) : Int)) ∧
      (∀ k, m ≤ k → k < n → s'.toindex[k]? = some (done.length : Int)) ∧
      (∀ k, k < m → ∃ b, s'.tocarry[k]? = some b ∧ b.length = total ∧
        ∀ i (hi : i < (done ++ [t]).length), b[i]? = (done ++ [t])[i][k]?) ∧
      (∀ k, m ≤ k → k < n → ∃ b, s'.tocarry[k]? = some b ∧ b.length = total ∧
        ∀ i (hi : i < done.length), b[i]? = done[i][k]?))
    ⟨rfl, h.count, fun k hk => by omega, fun k _ hk => h.pos k hk, fun k hk => by omega,
      fun k _ hk => h.row k hk⟩ (by
      rintro m hm s' ⟨g1, g2, g3, g4, g5, g6⟩
      obtain ⟨b, hb1, hb2, hb3⟩ := g6 m (Nat.le_refl _) hm
      have hp := g4 m (Nat.le_refl _) hm
      obtain ⟨hpl, hpe⟩ := List.getElem?_eq_some_iff.mp hp
      have hfi : m < s'.fromindex.length := by rw [g1]; have := h.room; omega
      have hfx : s'.fromindex[m] = t[m]'(by omega) := by
        have := hf m hm
        rw [← g1, List.getElem?_eq_getElem hfi, List.getElem?_eq_getElem (by omega)] at this
        exact Option.some.inj this
      have hbm : s'.tocarry[m]'(by omega) = b := by
        rw [List.getElem?_eq_getElem (by omega)] at hb1; exact Option.some.inj hb1
      refine ⟨{ s' with
          tocarry := s'.tocarry.set m (b.set done.length (t[m]'(by omega)))
          toindex := s'.toindex.set m ((done.length + 1 : Nat) : Int) }, ?_, ?_⟩
      · rw [rd_nat_ok (by omega), bind_ok, rd_nat_ok hpl, bind_ok, rd_nat_ok hfi, bind_ok, hpe, hfx,
          hbm, wr_nat_ok (by omega), bind_ok, wr_nat_ok (by omega), bind_ok, wr_nat_ok hpl, bind_ok]
        simp
      · refine ⟨g1, by simpa using g2, ?_, ?_, ?_, ?_⟩
        · intro k hk
          by_cases he : k = m
          · subst he; exact List.getElem?_set_self hpl
          · simp only; rw [List.getElem?_set_ne (by omega)]; exact g3 k (by omega)
        · intro k hk hk'
          simp only; rw [List.getElem?_set_ne (by omega)]; exact g4 k (by omega) hk'
        · intro k hk
          by_cases he : k = m
          · subst he
            refine ⟨_, List.getElem?_set_self (by omega), by simpa using hb2, ?_⟩
            intro i hi
            simp only [List.length_append, List.length_singleton] at hi
            by_cases hi' : i = done.length
            · subst hi'
              rw [List.getElem?_set_self (by omega)]
              simp [show k < t.length by omega]
            · rw [List.getElem?_set_ne (by omega), hb3 i (by omega), List.getElem_append_left]
          · obtain ⟨b', q1, q2, q3⟩ := g5 k (by omega)
            exact ⟨b', by simp only; rw [List.getElem?_set_ne (by omega)]; exact q1, q2, q3⟩
        · intro k hk hk'
          obtain ⟨b', q1, q2, q3⟩ := g6 k (by omega) hk'
          exact ⟨b', by simp only; rw [List.getElem?_set_ne (by omega)]; exact q1, q2, q3⟩)
  refine ⟨s', h1, ⟨h3, fun k hk => ?_, by rw [h2]; exact h.room, fun k hk => h6 k hk⟩, h2⟩
  rw [h4 k hk]; simp

theorem combinations_step_ok {stop : Int} {n total : Nat} {repl : Bool} (m : Nat) :
    ∀ (j : Nat) (done : List (List Int)) (s : CombState) (pre : List Int) (x : Int),
      j + (m + 1) = n → Filled n total done s → pre.length = j →
      (∀ k, k < j → s.fromindex[k]? = pre[k]?) → s.fromindex[j]? = some x →
      done.length + (choose repl (m + 1) (ints x (stop - x).toNat)).length ≤ total →
      ∃ s', combinations_step stop n repl (m + 1) j s = ok s' ∧
        Filled n total (done ++ (choose repl (m + 1) (ints x (stop - x).toNat)).map (pre ++ ·)) s' ∧
        s'.fromindex.length = s.fromindex.length ∧ ∀ k, k < j → s'.fromindex[k]? = pre[k]? := by
  induction m with
  | zero =>
    intro j done s pre x hj hF hpl hpre hx htot
    unfold combinations_step
    obtain ⟨hjl, hjx⟩ := List.getElem?_eq_some_iff.mp hx
    rw [rd_nat_ok hjl, bind_ok, hjx]
    generalize hL : (stop - x).toNat = L at htot ⊢
    induction L generalizing x s done with
    | zero =>
      refine ⟨s, ?_, by simpa [choose_nil] using hF, rfl, hpre⟩
      simp only [whileR]
      rw [rd_nat_ok hjl, bind_ok, bind_ok, hjx, if_neg (by simp; omega)]
    | succ L ihL =>
      have hL' : (stop - (x + 1)).toNat = L := by omega
      rw [ints_succ, choose_cons, choose_zero] at htot ⊢
      simp only [List.map_cons, List.map_nil, List.cons_append, List.nil_append,
        List.length_cons] at htot ⊢
      obtain ⟨fi, f1, f2, f3, f4⟩ := combinations_reset_ok (repl := repl) (show j < n by omega)
        hF.room hx
      obtain ⟨s1, w1, w2, w3⟩ := combinations_write_ok (t := pre ++ [x])
        (hF.congr (s' := { s with fromindex := fi }) rfl rfl (by have := hF.room; simp only; omega))
        (by simp; omega) (by
          intro k hk
          simp only
          rw [f3 k (by omega)]
          by_cases he : k = j
          · subst he; rw [hx]; simp [← hpl]
          · rw [hpre k (by omega), List.getElem?_append_left (by omega)]) (by omega)
      have hjl1 : j < s1.fromindex.length := by rw [w3]; simp only; omega
      have hfj : s1.fromindex[j]'hjl1 = x := by
        have : s1.fromindex[j]? = some x := by rw [w3]; simp only; rw [f3 j (Nat.le_refl _), hx]
        exact (List.getElem?_eq_some_iff.mp this).2
      rw [whileR]
      rw [rd_nat_ok hjl, bind_ok, bind_ok, hjx, if_pos (by simp; omega), f1, bind_ok,
        if_pos (by omega), w1, bind_ok, rd_nat_ok hjl1, bind_ok, hfj, wr_nat_ok hjl1, bind_ok, bind_ok]
      obtain ⟨s2, r1, r2, r3, r4⟩ := ihL (done ++ [pre ++ [x]])
        { s1 with fromindex := s1.fromindex.set j (x + 1) } (x + 1)
        (w2.congr rfl rfl (by have := w2.room; simpa using this))
        (by
          intro k hk
          simp only
          rw [List.getElem?_set_ne (by omega), w3]
          simp only
          rw [f3 k (by omega), hpre k hk])
        (by simp only; rw [List.getElem?_set_self hjl1]) (by simpa using hjl1)
        (by simp) hL'
        (by rw [List.length_append, List.length_singleton]; omega)
      refine ⟨s2, r1, by simpa using r2, ?_, r4⟩
      rw [r3]; simp only [List.length_set]; rw [w3]; exact f2
  | succ m ih =>
    intro j done s pre x hj hF hpl hpre hx htot
    unfold combinations_step
    obtain ⟨hjl, hjx⟩ := List.getElem?_eq_some_iff.mp hx
    rw [rd_nat_ok hjl, bind_ok, hjx]
    generalize hL : (stop - x).toNat = L at htot ⊢
    induction L generalizing x s done with
    | zero =>
      refine ⟨s, ?_, by simpa [choose_nil] using hF, rfl, hpre⟩
      simp only [whileR]
      rw [rd_nat_ok hjl, bind_ok, bind_ok, hjx, if_neg (by simp; omega)]
    | succ L ihL =>
      have hL' : (stop - (x + 1)).toNat = L := by omega
      rw [ints_succ, choose_cons] at htot ⊢
      simp only [List.length_append, List.length_map] at htot
      obtain ⟨fi, f1, f2, f3, f4⟩ := combinations_reset_ok (repl := repl) (show j < n by omega)
        hF.room hx
      have hnext : ints (if repl = true then x else x + 1)
          (stop - (if repl = true then x else x + 1)).toNat
            = if repl = true then x :: ints (x + 1) L else ints (x + 1) L := by
        cases repl
        · simp only [Bool.false_eq_true, if_false]
          congr 1
        · simp only [if_true]
          rw [hL, ints_succ]
      have hstep := ih (j + 1) done { s with fromindex := fi } (pre ++ [x])
        (if repl = true then x else x + 1) (by omega)
        (hF.congr rfl rfl (by have := hF.room; simp only; omega)) (by simp [hpl]) (by
          intro k hk
          simp only
          rw [f3 k (by omega)]
          by_cases he : k = j
          · subst he; rw [hx]; simp [← hpl]
          · rw [hpre k (by omega), List.getElem?_append_left (by omega)]) (by
          simp only
          rw [f4 (j + 1) (by omega) (by omega)]
          congr 1
          split
          · rfl
          · push_cast; omega)
      rw [hnext] at hstep
      obtain ⟨s1, w1, w2, w3, w4⟩ := hstep (by omega)
      have hjl1 : j < s1.fromindex.length := by rw [w3]; simp only; omega
      have hfj : s1.fromindex[j]'hjl1 = x := by
        have : s1.fromindex[j]? = some x := by
          rw [w4 j (by omega)]; simp [← hpl]
        exact (List.getElem?_eq_some_iff.mp this).2
      rw [whileR]
      rw [rd_nat_ok hjl, bind_ok, bind_ok, hjx, if_pos (by simp; omega), f1, bind_ok,
        if_neg (by omega), w1, bind_ok, rd_nat_ok hjl1, bind_ok, hfj, wr_nat_ok hjl1, bind_ok, bind_ok]
      obtain ⟨s2, r1, r2, r3, r4⟩ := ihL _
        { s1 with fromindex := s1.fromindex.set j (x + 1) } (x + 1)
        (w2.congr rfl rfl (by have := w2.room; simpa using this))
        (by
          intro k hk
          simp only
          rw [List.getElem?_set_ne (by omega), w4 k (by omega), List.getElem?_append_left (by omega)])
        (by simp only; rw [List.getElem?_set_self hjl1]) (by simpa using hjl1)
        (by simp) hL'
        (by rw [List.length_append, List.length_map]; omega)
      refine ⟨s2, r1, ?_, ?_, r4⟩
      · simpa [Function.comp_def] using r2
      · rw [r3]; simp only [List.length_set]; rw [w3]; exact f2

/-- The combinations of every list, one list after the other. -/
def allPicks (repl : Bool) (n : Nat) (st sp : Nat → Int) (length : Nat) : List (List Int) :=
  ((List.range length).map (fun i => choose repl n (ints (st i) (sp i - st i).toNat))).flatten

theorem combinations_kernel_ok {n length total : Nat} {repl : Bool} {start stop : Nat → R Int}
    {st sp : Nat → Int} {toindex fromindex : List Int} (hn : 1 ≤ n)
    (h1 : ∀ i, i < length → start i = ok (st i)) (h2 : ∀ i, i < length → stop i = ok (sp i))
    (ht : n ≤ toindex.length) (hf : n ≤ fromindex.length)
    (htot : (allPicks repl n st sp length).length = total) :
    combinations_kernel n repl start stop length ⟨List.replicate n (alloc total), toindex, fromindex⟩
      = ok ((List.range n).map (fun k => (allPicks repl n st sp length).map (fun t => t[k]?.getD 0))) := by
  have hlen : ∀ (i : Nat) (t : List Int), t ∈ choose repl n (ints (st i) (sp i - st i).toNat) →
      t.length = n := by
    intro i t ht
    unfold ints at ht
    rw [choose_map] at ht
    obtain ⟨t', h, rfl⟩ := List.mem_map.mp ht
    rw [List.length_map]
    exact ((mem_choose List.pairwise_lt_range).mp h).1
  unfold combinations_kernel
  have hz := forN_fill0 (n := n) (fun _ => ok (0 : Int)) toindex ht
  simp only [bind_ok, mapN_ok] at hz
  rw [hz, bind_ok]
  obtain ⟨s', e1, e2, e3⟩ := forN_inv (n := length)
    (s := (⟨List.replicate n (alloc total),
      (List.range n).map (fun _ => (0 : Int)) ++ toindex.drop n, fromindex⟩ : CombState))
    (body := fun i s =>
      start i >>= fun start => stop i >>= fun stop =>
      wr s.fromindex 0 start >>= fun fromindex =>
      combinations_step stop n repl n 0 { s with fromindex := fromindex })
    (fun m s => Filled n total (allPicks repl n st sp m) s ∧ n ≤ s.fromindex.length)
    (by
      refine ⟨⟨by simp, ?_, hf, ?_⟩, hf⟩
      · intro k hk
        simp only
        rw [List.getElem?_append_left (by simpa using hk)]
        simp [hk, allPicks]
      · intro k hk
        refine ⟨alloc total, by simp [hk], alloc_length _, ?_⟩
        intro i hi
        simp [allPicks] at hi) (by
      rintro i hi s ⟨hF, hl⟩
      have hpos : 0 < s.fromindex.length := by omega
      have hsucc : allPicks repl n st sp (i + 1) = allPicks repl n st sp i
          ++ choose repl n (ints (st i) (sp i - st i).toNat) := by
        simp [allPicks, List.range_succ]
      have hle : (allPicks repl n st sp (i + 1)).length ≤ total := by
        rw [← htot]
        unfold allPicks
        rw [flatten_map_length, flatten_map_length]
        exact sumTo_mono (by omega)
      obtain ⟨m, rfl⟩ : ∃ m, n = m + 1 := ⟨n - 1, by omega⟩
      have hw : wr s.fromindex 0 (st i) = ok (s.fromindex.set 0 (st i)) := wr_nat_ok (i := 0) hpos
      rw [h1 i hi, bind_ok, h2 i hi, bind_ok, hw, bind_ok]
      obtain ⟨s', q1, q2, q3, _⟩ := combinations_step_ok (stop := sp i) (total := total)
        (repl := repl) m 0 (allPicks repl (m + 1) st sp i)
        { s with fromindex := s.fromindex.set 0 (st i) } [] (st i) (by omega)
        (hF.congr rfl rfl (by simpa using hl)) rfl (fun k hk => by omega)
        (List.getElem?_set_self hpos)
        (by rw [hsucc, List.length_append] at hle; exact hle)
      refine ⟨s', q1, ?_, by rw [q3]; simpa using hl⟩
      rw [hsucc]
      simpa using q2)
  rw [e1, bind_ok]
  congr 1
  apply List.ext_getElem?
  intro k
  by_cases hk : k < n
  · obtain ⟨b, b1, b2, b3⟩ := e2.row k hk
    rw [b1, List.getElem?_map, List.getElem?_range hk, Option.map_some, Option.some.injEq]
    apply List.ext_getElem?
    intro i
    by_cases hi : i < (allPicks repl n st sp length).length
    · rw [b3 i hi, List.getElem?_map, List.getElem?_eq_getElem hi, Option.map_some]
      have hm : (allPicks repl n st sp length)[i] ∈ allPicks repl n st sp length :=
        List.getElem_mem hi
      have hl : (allPicks repl n st sp length)[i].length = n := by
        unfold allPicks at hm
        obtain ⟨l, hl1, hl2⟩ := List.mem_flatten.mp hm
        obtain ⟨q, _, rfl⟩ := List.mem_map.mp hl1
        exact hlen q _ hl2
      rw [List.getElem?_eq_getElem (by omega)]
      simp
    · rw [List.getElem?_eq_none (by omega), List.getElem?_eq_none (by simp; omega)]
  · rw [List.getElem?_eq_none (by rw [e2.count]; omega), List.getElem?_eq_none (by simp; omega)]

theorem combinations_count_ok {n L : Nat} {repl : Bool} (hn : 1 ≤ n) :
    combinations_count n repl (L : Int) = ok (picks repl n L : Int) := by
  unfold combinations_count picks
  have hs : (if repl = true then (L : Int) + (n - 1) else (L : Int))
      = ((if repl = true then L + n - 1 else L : Nat) : Int) := by
    split <;> omega
  simp only [hs]
  generalize (if repl = true then L + n - 1 else L) = s
  by_cases h1 : s < n
  · rw [if_pos (by omega), Nat.choose_eq_zero_of_lt h1]; rfl
  rw [if_neg (by omega)]
  by_cases h2 : n = s
  · subst h2; rw [if_pos rfl]; simp
  rw [if_neg (by omega)]
  have hkey : ∀ t : Nat, 1 ≤ t → t < s →
      forN ((t : Int) - 1).toNat (fun i len =>
        ok ((len * ((s : Int) - ((i : Int) + 2) + 1)).tdiv ((i : Int) + 2))) (s : Int)
        = ok (s.choose t : Int) := by
    intro t ht hts
    obtain ⟨u, rfl⟩ : ∃ u, t = u + 1 := ⟨t - 1, by omega⟩
    rw [show (((u + 1 : Nat) : Int) - 1).toNat = u by omega]
    clear ht
    induction u with
    | zero => simp
    | succ u ih =>
      rw [forN_succ, ih (by omega), bind_ok]
      congr 1
      have hc := Nat.choose_succ_right_eq s (u + 1)
      have e1 : (s : Int) - ((u : Int) + 2) + 1 = ((s - (u + 1) : Nat) : Int) := by omega
      have e2 : (u : Int) + 2 = ((u + 1 + 1 : Nat) : Int) := by push_cast; ring
      rw [e1, e2, ← Int.natCast_mul, ← hc, ← Int.ofNat_tdiv,
        Nat.mul_div_cancel _ (by omega)]
  by_cases h3 : s < n * 2
  · rw [if_pos (by omega)]
    have := hkey (s - n) (by omega) (by omega)
    rw [show (((s - n : Nat) : Int)) = (s : Int) - n by omega] at this
    rw [Nat.choose_symm (by omega)] at this
    exact this
  · rw [if_neg (by omega)]
    exact hkey n hn (by omega)

end Awk
