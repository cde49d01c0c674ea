import Verif.Model.IsClose
import Verif.Spec.IsClose
import Verif.Lemmas.BcastMask
/-
`ak.isclose` compares the numbers that belong together.
-/

namespace Awk
open R Spec

theorem Spec.NumberOf.asRat {a : Atom} {q : Rat} (h : NumberOf a q) : a.asRat = q := by
  cases h <;> rfl

namespace Content

theorem closeGet_ok (rtol atol : Rat) :
    GetOk (fun _ => AllNodes BcastNode) (closeGet rtol atol)
      (fun _ vs outs => ∃ x y c, vs = [.atom x, .atom y] ∧ outs = [.atom (.bool c)] ∧
        ∀ p q, NumberOf x p → NumberOf y q → (c = true ↔ |p - q| ≤ atol + rtol * |q|))
      (fun _ vs => Val.null ∈ vs ∨ (∃ xs, Val.list xs ∈ vs) ∨ ∃ v ∈ vs, v.IsRecord) true 2 1 where
  stop depth b cs outs n hl hg h := by
    unfold closeGet at h
    split at h
    · rename_i p1 t1 xs p2 t2 ys
      simp only [ok.injEq, Option.some.injEq] at h; subst h
      have h1 : xs.length = n := by simpa [len] using (hg (numpy p1 t1 xs) (by simp)).2
      have h2 : ys.length = n := by simpa [len] using (hg (numpy p2 t2 ys) (by simp)).2
      refine ⟨rfl, fun c hc => (hg c hc).2, by simpa [len, h1, h2] using good_numpy _ _ _, fun i hi => ?_⟩
      refine ⟨xs[i], ys[i], closeAtoms rtol atol xs[i] ys[i], ?_, ?_, ?_⟩
      · simp [valD_numpy (show i < xs.length by omega), valD_numpy (show i < ys.length by omega)]
      · simp only [List.map_cons, List.map_nil, List.cons.injEq, and_true]
        rw [valD_numpy (by simp [h1, h2, hi])]
        simp
      · intro p q hp hq
        simp [closeAtoms, hp.asRat, hq.asRat]
    · cases h
  null depth cs vs h hl hn := .inl hn
  go depth b cs n hl hg h hk hrec i hi := by
    clear hrec
    right
    have key : ∀ c ∈ cs, c.isNumpy = false →
        (∃ xs, Val.list xs ∈ cs.map (fun c => c.valD i)) ∨ ∃ v ∈ cs.map (fun c => c.valD i), v.IsRecord := by
      intro c hc hn
      obtain ⟨hb, hcl⟩ := hg c hc
      rcases hk c hc with hj | hf
      · obtain ⟨xs, hx⟩ := jagged_val BcastNode.fam (b := b) hb hj (i := i) (by omega)
        exact .inl ⟨xs, List.mem_map.mpr ⟨c, hc, hx⟩⟩
      · refine .inr ⟨_, List.mem_map.mpr ⟨c, hc, rfl⟩, ?_⟩
        cases c <;> simp only [isFlat, Bool.false_eq_true] at hf
        case numpy => simp [isNumpy] at hn
        case record p keys ds length =>
          simp only [len] at hcl
          rw [valD_record hb.good (by omega)]
          exact isRecord_mkRecord _ _
    obtain ⟨c, m, rfl⟩ : ∃ c m, cs = [c, m] := by
      match cs, hl with
      | [v, m], _ => exact ⟨v, m, rfl⟩
    by_cases h1 : c.isNumpy = true
    · by_cases h2 : m.isNumpy = true
      · exfalso
        cases c <;> simp only [isNumpy, Bool.false_eq_true] at h1
        cases m <;> simp only [isNumpy, Bool.false_eq_true] at h2
        simp [closeGet] at h
      · exact key m (by simp) (by simpa using h2)
    · exact key c (by simp) (by simpa using h1)

/-- What `isclose` returns. -/
theorem isClose_sound {fuel : Nat} {rtol atol : Rat} {a b : Content} (ha : Bin a) (hb : Bin b)
    {it : Item} (h : isClose fuel rtol atol a b = ok it) :
    ∃ out ys n, it = .array out ∧ out.toList = ok ys ∧ ys.length = n ∧ n = max a.len b.len ∧
      (a.len = n ∨ a.len = 1 ∧ 1 < n) ∧ (b.len = n ∨ b.len = 1 ∧ 1 < n) ∧
      ∀ i, i < n → Close rtol atol (a.valD (if a.len = 1 then 0 else i))
        (b.valD (if b.len = 1 then 0 else i)) (ys[i]?.getD .null) := by
  obtain ⟨out, ys, n, h1, h2, h3, h4, h5, h6⟩ := bcastAndApply_regular (a := ⟨true, false, true⟩) rfl
    (closeGet_ok rtol atol) (by simp) (cs := [a, b]) (by simpa using ⟨ha, hb⟩) rfl h
  refine ⟨out, ys, n, h1, h2, h3, ?_, h5 a (by simp), h5 b (by simp), fun i hi => ?_⟩
  · simpa using h4
  · simpa [Close] using h6 i hi

/-- Flat arrays of the same length are accepted. -/
theorem isClose_flat {fuel n : Nat} {rtol atol : Rat} {p q : Params} {t u : DType} {xs ys : List Atom}
    (hf : 2 ≤ fuel) (hx : xs.length = n) (hy : ys.length = n) (hn : n < 2 ^ 63 - 1) :
    ∃ out, isClose fuel rtol atol (numpy p t xs) (numpy q u ys) = ok (.array out) ∧
      out.toList = ok (List.zipWith (fun a b => .atom (.bool (closeAtoms rtol atol a b))) xs ys) := by
  obtain ⟨f, rfl⟩ : ∃ f, fuel = f + 2 := ⟨fuel - 2, by omega⟩
  have hpc : ∀ (d : Content), d.len = n → bcastRegular n (pack d) = getitemRange d 0 (n : Int) := by
    intro d hd
    have hp := pack_len d
    unfold pack at hp ⊢
    simp only [bcastRegular, hp, Nat.one_mul]
    rw [if_neg (by omega), if_pos hd, hd]
  have hnum : ∀ (p : Params) (t : DType) (data : List Atom), data.length = n →
      getitemRange (numpy p t data) 0 (n : Int) = ok (numpy p t data) := by
    intro p t data hd
    rw [getitemRange_exact (by simp [len, hd]) hn]
    simp only [range, numpyRange]
    unfold getitem_range_nowrap
    simp [← hd]
  obtain ⟨zs, hzs⟩ : ∃ zs, zs = List.zipWith (fun a b => Atom.bool (closeAtoms rtol atol a b)) xs ys := ⟨_, rfl⟩
  have hz : zs.length = n := by simp [hzs, hx, hy]
  have h2 : bcastWith ⟨true, false, true⟩ (closeGet rtol atol) (f + 1) 1 [numpy p t xs, numpy q u ys]
      = ok [numpy {} .bool zs] := by
    rw [bcastWith]
    rw [show mapR (regularToJagged (⟨true, false, true⟩ : BcastArgs).jagged) [numpy p t xs, numpy q u ys]
      = ok [numpy p t xs, numpy q u ys] from rfl, bind_ok]
    simp only [if_true]
    rw [show rightBroadcast [numpy p t xs, numpy q u ys] = [numpy p t xs, numpy q u ys] from rfl,
      if_neg (by simp [hx, hy, len])]
    simp only [closeGet, bind_ok, hzs]
  have h1 : bcastWith ⟨true, false, true⟩ (closeGet rtol atol) (f + 2) 0 [pack (numpy p t xs), pack (numpy q u ys)]
      = ok [regular {} (numpy {} .bool zs) n n] := by
    have hlc := pack_len (numpy p t xs)
    have hlm := pack_len (numpy q u ys)
    rw [bcastWith]
    rw [show mapR (regularToJagged (⟨true, false, true⟩ : BcastArgs).jagged) [pack (numpy p t xs), pack (numpy q u ys)]
        = ok [pack (numpy p t xs), pack (numpy q u ys)] from rfl, bind_ok]
    simp only [if_true]
    rw [show rightBroadcast [pack (numpy p t xs), pack (numpy q u ys)] = [pack (numpy p t xs), pack (numpy q u ys)] from rfl,
      if_neg (by simp [hlc, hlm]),
      show closeGet rtol atol 0 [pack (numpy p t xs), pack (numpy q u ys)] = ok none from rfl, bind_ok]
    simp only
    rw [show bcastSwitch ⟨true, false, true⟩ (bcastWith ⟨true, false, true⟩ (closeGet rtol atol) (f + 1)) 0
        [pack (numpy p t xs), pack (numpy q u ys)]
      = regularStep (bcastWith ⟨true, false, true⟩ (closeGet rtol atol) (f + 1) 1)
        [pack (numpy p t xs), pack (numpy q u ys)] from rfl]
    unfold regularStep
    rw [show (([pack (numpy p t xs), pack (numpy q u ys)].map regularSize).foldl max 0) = n by
      simp [pack, regularSize, hx, hy, len]]
    simp only [mapR, hpc (numpy p t xs) (by simp [len, hx]), hpc (numpy q u ys) (by simp [len, hy]), hnum p t xs hx,
      hnum q u ys hy, bind_ok, h2, List.map_cons, List.map_nil]
    simp [len, hx, hy]
  have hr : (numpy {} .bool zs).range 0 (n : Int) = ok (numpy {} .bool zs) := by
    simp only [range, numpyRange]
    unfold getitem_range_nowrap
    simp [← hz]
  have hit : bcastItem (regular {} (numpy {} .bool zs) n n) = ok (.array (numpy {} .bool zs)) := by
    unfold bcastItem
    by_cases hm0 : n = 0
    · subst hm0
      rw [if_pos (show (regular {} (numpy {} .bool zs) 0 0).len = 0 from rfl)]
      simp only
      rw [show (numpy {} .bool zs).range 0 0 = _ from hr]
      rfl
    · have hl : (regular {} (numpy {} .bool zs) n n).len = 1 := by
        simp only [Content.len]
        rw [if_pos hm0, hz, Nat.div_self (by omega)]
      rw [if_neg (by omega)]
      unfold getitemAt
      simp only [Int.lt_irrefl, if_false]
      rw [if_neg (by omega)]
      simp only [getitemAtNowrap, show (0 : Int).toNat = 0 from rfl, Nat.cast_zero, Int.zero_mul,
        Int.zero_add, Int.one_mul]
      rw [hr]
      rfl
  refine ⟨numpy {} .bool zs, ?_, ?_⟩
  · unfold isClose bcastAndApply
    rw [show (([numpy p t xs, numpy q u ys]).map (fun c => regular {} c c.len 1))
      = [pack (numpy p t xs), pack (numpy q u ys)] from rfl, h1]
    simp only [bind_ok, mapR, hit, onlyOutput]
  · rw [(good_numpy _ _ _).toList]
    congr 1
    apply List.ext_getElem (by simp [len, hz, hx, hy])
    intro i h3 h4
    simp only [List.length_map, List.length_range, len] at h3
    simp only [List.getElem_map, List.getElem_range]
    rw [valD_numpy h3]
    simp [hzs]

end Content
end Awk
