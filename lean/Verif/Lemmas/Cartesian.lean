import Verif.Lemmas.With
/-
Lemmas about `cartesian` with axis 0.
-/

namespace Awk
open R Content Spec

/-- An element of a concatenation of lists of the same length. -/
theorem getElem?_flatten_same {α : Type} {P r : Nat} (hr : r < P) : ∀ {L : List (List α)},
    (∀ l ∈ L, l.length = P) → ∀ q, L.flatten[q * P + r]? = L[q]?.bind (·[r]?)
  | [], _, q => by simp
  | l :: L, h, 0 => by
    have := h l (by simp)
    simp only [List.flatten_cons, List.getElem?_cons_zero, Option.bind_some, Nat.zero_mul, Nat.zero_add]
    rw [List.getElem?_append_left (by omega)]
  | l :: L, h, q + 1 => by
    have hl := h l (by simp)
    have := getElem?_flatten_same hr (L := L) (fun l hl => h l (by simp [hl])) q
    rw [List.flatten_cons, List.getElem?_cons_succ, ← this,
      List.getElem?_append_right (by rw [hl, Nat.succ_mul]; omega)]
    congr 1
    rw [hl, Nat.succ_mul]; omega

theorem length_flatten_same {α : Type} {P : Nat} {L : List (List α)} (h : ∀ l ∈ L, l.length = P) :
    L.flatten.length = L.length * P := by
  induction L with
  | nil => simp
  | cons l L ih =>
    rw [List.flatten_cons, List.length_append, ih (fun l hl => h l (by simp [hl])), h l (by simp),
      List.length_cons, Nat.succ_mul]
    omega

namespace Content

/-- The numbers of the elements that make the choice with number `k`. -/
def digits : List Nat → Nat → List Nat
  | [], _ => []
  | _ :: ls, k => (k / ls.prod) :: digits ls (k % ls.prod)

theorem mesh_length : ∀ {ls : List Nat}, (meshIndexes ls).length = ls.length
  | [] => rfl
  | l :: ls => by simp [meshIndexes, mesh_length]

theorem mesh_columns : ∀ {ls : List Nat}, ∀ xs ∈ meshIndexes ls, xs.length = ls.prod
  | [], xs, h => by simp [meshIndexes] at h
  | l :: ls, xs, h => by
    simp only [meshIndexes, List.mem_cons, List.mem_map] at h
    rcases h with rfl | ⟨ys, hy, rfl⟩
    · rw [length_flatten_same (P := ls.prod) (by simp)]; simp
    · rw [length_flatten_same (P := ls.prod) (by simp [mesh_columns ys hy])]; simp

theorem mesh_get : ∀ {ls : List Nat} {k : Nat}, k < ls.prod →
    (meshIndexes ls).map (fun xs => xs[k]?) = (digits ls k).map (fun (d : Nat) => some (d : Int))
  | [], _, _ => rfl
  | l :: ls, k, hk => by
    rw [List.prod_cons] at hk
    have hP : 0 < ls.prod := Nat.pos_of_ne_zero (fun h => by simp [h] at hk)
    have hr := Nat.mod_lt k hP
    have hq : k / ls.prod < l := Nat.div_lt_of_lt_mul (by rwa [Nat.mul_comm] at hk)
    have hkk : k = k / ls.prod * ls.prod + k % ls.prod := by
      have := Nat.div_add_mod k ls.prod
      rw [Nat.mul_comm] at this; omega
    simp only [meshIndexes, digits, List.map_cons, List.map_map]
    congr 1
    · conv => lhs; rw [hkk]
      rw [getElem?_flatten_same hr (by simp)]
      simp [hq, hr]
    · rw [← mesh_get hr]
      refine List.map_congr_left (fun xs hxs => ?_)
      show (List.replicate l xs).flatten[k]? = _
      conv => lhs; rw [hkk]
      rw [getElem?_flatten_same hr (by simp [mesh_columns xs hxs])]
      simp [hq]

theorem digits_length : ∀ {ls : List Nat} {k : Nat}, (digits ls k).length = ls.length
  | [], _ => rfl
  | _ :: ls, k => by simp [digits, digits_length]

/-- The digits are numbers of elements. -/
theorem digits_lt : ∀ {ls : List Nat} {k : Nat}, k < ls.prod → ∀ {j : Nat} (h : j < ls.length),
    (digits ls k)[j]'(by rw [digits_length]; exact h) < ls[j]
  | [], _, _, _, h => by simp at h
  | l :: ls, k, hk, j, h => by
    rw [List.prod_cons] at hk
    have hP : 0 < ls.prod := Nat.pos_of_ne_zero (fun h => by simp [h] at hk)
    match j with
    | 0 => exact Nat.div_lt_of_lt_mul (by rwa [Nat.mul_comm] at hk)
    | j + 1 => exact digits_lt (Nat.mod_lt k hP) (by simpa using h)

theorem product_length {α : Type} : ∀ {vss : List (List α)}, (product vss).length = (vss.map List.length).prod
  | [] => rfl
  | vs :: vss => by
    rw [product, List.flatMap_def, length_flatten_same (P := (vss.map List.length).prod)
      (by simp [product_length])]
    simp

theorem product_get {α : Type} (z : α) : ∀ {vss : List (List α)} {k : Nat},
    k < (vss.map List.length).prod →
    (product vss)[k]? = some (List.zipWith (fun vs d => vs[d]?.getD z) vss
      (digits (vss.map List.length) k))
  | [], k, hk => by
    have : k = 0 := by simpa using hk
    subst this; rfl
  | vs :: vss, k, hk => by
    simp only [List.map_cons, List.prod_cons] at hk
    generalize hP' : (vss.map List.length).prod = P at hk
    have hP : 0 < P := Nat.pos_of_ne_zero (fun h => by simp [h] at hk)
    have hr := Nat.mod_lt k hP
    have hq : k / P < vs.length := Nat.div_lt_of_lt_mul (by rwa [Nat.mul_comm] at hk)
    have hkk : k = k / P * P + k % P := by
      have := Nat.div_add_mod k P
      rw [Nat.mul_comm] at this; omega
    simp only [product, digits, List.map_cons, List.zipWith_cons_cons, hP']
    rw [List.flatMap_def]
    conv => lhs; rw [hkk]
    rw [getElem?_flatten_same hr (by simp [product_length, hP'])]
    simp [hq, product_get z (vss := vss) (k := k % P) (by rw [hP']; exact hr)]

/-- The record array of the choices, before the lists of `nested`. -/
theorem cartesian_flat {p : Params} {keys : Option (List String)} {cs : List Content} (hne : cs ≠ [])
    (hg : ∀ c ∈ cs, c.Good) :
    let outs := List.zipWith (fun idx c => indexed {} idx c) (meshIndexes (cs.map len)) cs
    (record p keys outs (minLength outs)).Good ∧
    (record p keys outs (minLength outs)).len = (cs.map len).prod ∧
    (record p keys outs (minLength outs)).toList
      = ok ((product (cs.map (fun c => (List.range c.len).map c.valD))).map (mkRecord keys)) := by
  intro outs
  have hol : outs.length = cs.length := by simp [outs, mesh_length]
  have hout : ∀ (j : Nat) (h : j < outs.length), ∃ idx, (meshIndexes (cs.map len))[j]? = some idx ∧
      outs[j] = indexed {} idx (cs[j]'(by omega)) ∧ idx.length = (cs.map len).prod := by
    intro j h
    have hj : j < (meshIndexes (cs.map len)).length := by simp [mesh_length]; omega
    exact ⟨_, List.getElem?_eq_getElem hj, by simp [outs], mesh_columns _ (List.getElem_mem hj)⟩
  have hidx : ∀ (j : Nat) (h : j < outs.length) (idx : List Int),
      (meshIndexes (cs.map len))[j]? = some idx → ∀ k (hk : k < idx.length), idx.length = (cs.map len).prod →
      idx[k] = ((digits (cs.map len) k)[j]'(by rw [digits_length]; simp; omega) : Int) := by
    intro j h idx hi k hk hl
    have := congrArg (fun l => l[j]?) (mesh_get (ls := cs.map len) (k := k) (by omega))
    simp only [List.getElem?_map, hi, Option.map_some] at this
    rw [List.getElem?_eq_getElem hk, List.getElem?_eq_getElem (by rw [digits_length]; simp; omega)] at this
    simpa using this
  have hgo : ∀ c ∈ outs, c.Good ∧ c.len = (cs.map len).prod := by
    intro c hc
    obtain ⟨j, hj, rfl⟩ := List.mem_iff_getElem.mp hc
    obtain ⟨idx, h1, h2, h3⟩ := hout j hj
    rw [h2]
    refine ⟨good_indexed.mpr ⟨hg _ (List.getElem_mem _), fun k hk => ?_⟩, h3⟩
    rw [hidx j hj idx h1 k hk h3]
    have := digits_lt (ls := cs.map len) (k := k) (by omega) (j := j) (by simp; omega)
    simp only [List.getElem_map] at this
    omega
  have hml : minLength outs = (cs.map len).prod :=
    minLength_same (fun h => hne (List.length_eq_zero_iff.mp (by rw [← hol, h]; rfl))) (fun c hc => (hgo c hc).2)
  have hgr : (record p keys outs (minLength outs)).Good :=
    good_record.mpr ⟨fun c hc => by rw [(hgo c hc).2, hml], fun c hc => (hgo c hc).1⟩
  refine ⟨hgr, hml, ?_⟩
  rw [hgr.toList]
  have hpl : (product (cs.map (fun c => (List.range c.len).map c.valD))).length = (cs.map len).prod := by
    rw [product_length]
    simp [Function.comp_def]
  congr 1
  apply List.ext_getElem
  · simp [len, hml, hpl]
  · intro k h1 h2
    have hk : k < (cs.map len).prod := by simpa [len, hml] using h1
    simp only [List.getElem_map, List.getElem_range]
    rw [valD_record hgr (by rw [hml]; exact hk)]
    congr 1
    have := product_get Val.null (vss := cs.map (fun c => (List.range c.len).map c.valD)) (k := k)
      (by simpa [Function.comp_def] using hk)
    rw [List.getElem?_eq_getElem (by omega)] at this
    rw [Option.some.inj this]
    apply List.ext_getElem
    · simp [hol, digits_length]
    · intro j g1 g2
      simp only [List.length_map] at g1
      obtain ⟨idx, i1, i2, i3⟩ := hout j g1
      have hj : j < cs.length := by omega
      have hd := digits_lt (ls := cs.map len) (k := k) hk (j := j) (by simp; omega)
      simp only [List.getElem_map] at hd
      have hgj := (hgo _ (List.getElem_mem g1)).1
      simp only [List.getElem_map, List.getElem_zipWith, i2] at hgj ⊢
      rw [valD_indexed hgj (by omega), hidx j g1 idx i1 k (by omega) i3]
      simp only [Int.toNat_natCast, List.map_map, Function.comp_def, List.length_map, List.length_range]
      rw [List.getElem?_eq_getElem (by simpa using hd)]
      simp

/-- Fixed-size lists of the elements of an array. -/
theorem regular_groups {α : Type} {r : Content} {size : Nat} (hs : 0 < size) (hg : r.Good) {xs : List α}
    {ys : α → List Val} (hy : ∀ x ∈ xs, (ys x).length = size) (hr : r.toList = ok (xs.flatMap ys)) :
    (regular {} r size 0).Good ∧ (regular {} r size 0).toList = ok (xs.map (fun x => Val.list (ys x))) := by
  have hgr : (regular {} r size 0).Good := good_regular.mpr hg
  refine ⟨hgr, ?_⟩
  rw [hg.toList, List.flatMap_def] at hr
  have hr := R.ok.inj hr
  have hl : r.len = xs.length * size := by
    have := congrArg List.length hr
    rw [length_flatten_same (P := size) (by simpa using hy)] at this
    simpa using this
  have hlen : (regular {} r size 0).len = xs.length := by
    simp only [len, hl]
    rw [if_pos (by omega)]
    exact Nat.mul_div_cancel _ hs
  rw [hgr.toList, hlen]
  congr 1
  apply List.ext_getElem
  · simp
  · intro i h1 h2
    have hi : i < xs.length := by simpa using h1
    simp only [List.getElem_map, List.getElem_range]
    rw [valD_regular hg (by rw [hlen]; exact hi)]
    show Val.list _ = _
    congr 1
    apply List.ext_getElem
    · simp [seg, hy _ (List.getElem_mem hi)]
    · intro k g1 g2
      have hk : k < size := by simpa [seg] using g1
      have hb : i * size + k < r.len := by
        rw [hl]
        calc i * size + k < i * size + size := by omega
          _ = (i + 1) * size := by rw [Nat.succ_mul]
          _ ≤ xs.length * size := Nat.mul_le_mul_right _ hi
      have := congrArg (fun l => l[i * size + k]?) hr
      simp only [getElem?_flatten_same hk (L := xs.map ys) (by simpa using hy)] at this
      simpa [hb, hi, List.getElem?_eq_getElem g2, seg] using this

theorem product_snoc {α : Type} (vs : List α) : ∀ xss : List (List α),
    product (xss ++ [vs]) = (product xss).flatMap (fun pre => vs.map (fun v => pre ++ [v]))
  | [] => by induction vs with
    | nil => rfl
    | cons v vs ih => simpa [product] using ih
  | xs :: xss => by
    simp only [List.cons_append, product, product_snoc vs xss, List.map_flatMap, List.flatMap_assoc,
      List.flatMap_map, List.map_map, Function.comp_def]

/-- The lists of `nested=True`, from the last array to the first. -/
theorem nestAll_all {mk : List Val → Val} {cs : List Content} {vss : List (List Val)}
    (hv : vss = cs.map (fun c => (List.range c.len).map c.valD)) (hpos : ∀ c ∈ cs.tail, 0 < c.len) :
    ∀ (i : Nat), i < cs.length → ∀ (r : Content), r.Good →
    r.toList = ok ((product (vss.take (i + 1))).map (fun pre => nestedProduct mk pre (vss.drop (i + 1)))) →
    ∃ out, nestAll (List.range (cs.length - 1)) cs i r = ok out ∧ out.Good ∧
      out.toList = ok ((product (vss.take 1)).map (fun pre => nestedProduct mk pre (vss.drop 1)))
  | 0, _, r, hg, hr => ⟨r, rfl, hg, hr⟩
  | i + 1, hi, r, hg, hr => by
    have hvl : vss.length = cs.length := by simp [hv]
    have hi' : i + 1 < vss.length := by omega
    have hsz : vss[i + 1].length = cs[i + 1].len := by simp [hv]
    have hp : 0 < cs[i + 1].len := hpos _ (by
      match cs, hi with
      | c :: cs, hi => exact List.getElem_mem (by simpa using hi))
    have htake : vss.take (i + 1 + 1) = vss.take (i + 1) ++ [vss[i + 1]] := by
      rw [List.take_succ_eq_append_getElem hi']
    have hdrop : vss.drop (i + 1) = vss[i + 1] :: vss.drop (i + 1 + 1) := by
      rw [List.drop_eq_getElem_cons hi']
    rw [htake, product_snoc, List.map_flatMap] at hr
    obtain ⟨h1, h2⟩ := regular_groups hp hg (by simp [hsz]) hr
    obtain ⟨out, o1, o2, o3⟩ := nestAll_all (mk := mk) hv hpos i (by omega) _ h1 (by
      rw [h2]
      congr 1
      refine List.map_congr_left (fun pre _ => ?_)
      rw [hdrop, nestedProduct]
      simp [Function.comp_def])
    refine ⟨out, ?_, o2, o3⟩
    rw [nestAll, if_pos (by simp; omega), List.getElem?_eq_getElem hi]
    exact o1

end Content
end Awk
