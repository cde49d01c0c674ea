import Verif.Lemmas.StridedNext
import Verif.Lemmas.ValD
/-
Slicing a whole NumPy array, and turning it into nested lists of fixed size.
-/

namespace Awk
open R Spec

namespace Nd

theorem wrapped_contiguous {b : Nd} (hl : b.strides.length = b.shape.length) (hne : b.shape ≠ [])
    (hc : b.iscontiguous = true) :
    contiguousFrom b.itemsize b.shape b.strides
      = some (((b.shape.getD 0 0 : Nat) : Int) * b.strides.getD 0 0) := by
  unfold iscontiguous at hc
  cases hs : b.shape with
  | nil => exact absurd hs hne
  | cons n ns =>
    cases ht : b.strides with
    | nil => rw [hs, ht] at hl; simp at hl
    | cons s ss =>
      rw [hs, ht] at hc
      have h1 := contiguousFrom_cons.mp hc
      simp only [contiguousFrom, h1, ne_eq, not_true_eq_false, if_false, List.getD_cons_zero]
      rw [Int.mul_comm]

theorem cstrides_of_contiguous_aux {k : Nat} {ns : List Nat} : ∀ {ss : List Int}, ss.length = ns.length →
    (contiguousFrom k ns ss).isSome = true → ss = cstrides k ns := by
  induction ns with
  | nil => intro ss hl _; simpa [cstrides] using hl
  | cons n ns ih =>
    intro ss hl hc
    cases ss with
    | nil => simp at hl
    | cons s ss =>
      have hl' : ss.length = ns.length := by simpa using hl
      have h1 := contiguousFrom_cons.mp hc
      rw [cstrides, ← ih hl' (by rw [h1]; rfl), contiguousFrom_eq hl' h1]

theorem cstrides_of_contiguous {b : Nd} (hl : b.strides.length = b.shape.length)
    (hc : b.iscontiguous = true) : b.strides = cstrides b.itemsize b.shape :=
  cstrides_of_contiguous_aux hl hc

theorem getitem_ok {a : Nd} {items : List NdItem} {shape : List Nat} {v : Val} (hne : a.shape ≠ [])
    (hl : a.strides.length = a.shape.length) (hv : a.toVal = ok v) (hok : ∀ it ∈ items, NdItemOk shape it) :
    (fitsShape a.shape (expandEllipsis a.shape.length items) = true ∧
      ∃ out w, a.getitem items = ok out ∧ select (expandEllipsis a.shape.length items) none v = some w ∧
        out.toVal = ok w ∧ out.shape = slicedShape a.shape true (expandEllipsis a.shape.length items) ∧
        out.strides.length = out.shape.length) ∨
    (fitsShape a.shape (expandEllipsis a.shape.length items) = false ∧ (a.getitem items).IsErr) := by
  unfold getitem
  rw [if_neg (by simpa using hne)]
  by_cases hadv : isAdvanced items = true
  · rw [if_pos hadv]
    obtain ⟨m, ns, hsh⟩ := List.exists_cons_of_ne_nil hne
    obtain ⟨b, e1, e2, e3, e4, e5, e6, e7, _⟩ := contiguous_ok hsh hl hv
    rw [e1, bind_ok]
    have key := getitemNext_ok (items.length + b.wrapped.shape.length) items b.wrapped 1 b.shape
      (((b.shape.getD 0 0 : Nat) : Int) * b.strides.getD 0 0) b.strides [0] none 1 shape (fun _ => v)
      (Nat.le_refl _) rfl rfl e3 (wrapped_contiguous e3 (by rw [e2]; exact hne) e4) hok
      (fun A hA => by simp at hA) (by
        intro i hi
        obtain rfl : i = 0 := by simpa using hi
        simp only [List.getElem_cons_zero, zero_mul, add_zero]
        rw [← e5]
        exact congrFun (congrFun (congrFun (valueAt_same (a := b) (b := b.wrapped) rfl) _) _) _)
    have hst : b.wrapped.strides.getD 0 0 = ((b.shape.getD 0 0 : Nat) : Int) * b.strides.getD 0 0 := rfl
    rw [← hst] at key
    rw [e2] at key
    rcases key with ⟨hf, out, l0, t, ts, k1, k2, k3, k4, k5, k6, k7, k8⟩ | ⟨hf, e, he⟩
    · left
      refine ⟨hf, ?_⟩
      obtain ⟨w, w1, w2⟩ := k8 0 (by simp)
      refine ⟨out.unwrapped, w, ?_, w1, ?_, by simp [unwrapped, k2], by simp [unwrapped, k2, k3, k4]⟩
      · rw [k1]; rfl
      · unfold toVal unwrapped
        simp only [k2, k3, k5, List.tail_cons]
        simp only [Nat.cast_zero, zero_mul] at w2
        rw [← w2]
        exact congrFun (congrFun (congrFun (valueAt_same (a := out) (b := { out with shape := _, strides := ts, byteoffset := _ }) rfl) _) _) _
    · right
      refine ⟨hf, e, ?_⟩
      rw [he]; rfl
  · rw [if_neg hadv]
    rcases bystrides_sliced (items.length + a.wrapped.shape.length) items a.wrapped 1 a.shape
      (((a.shape.getD 0 0 : Nat) : Int) * a.strides.getD 0 0) a.strides 1 shape (Nat.le_refl _) rfl rfl hl hok
      (by simpa using hadv) with ⟨hf, out, l0, t, ts, k1, k2, k3, k4, k5, k6⟩ | ⟨hf, e, he⟩
    · left
      refine ⟨hf, ?_⟩
      obtain ⟨w, w1, w2⟩ := k6 0 v (by
        rw [add_zero, ← hv]
        exact congrFun (congrFun (congrFun (valueAt_same (a := a) (b := a.wrapped) rfl) _) _) _)
      refine ⟨out.unwrapped, w, by rw [k1]; rfl, w1, ?_, by simp [unwrapped, k2], by simp [unwrapped, k2, k3, k4]⟩
      unfold toVal unwrapped
      simp only [k2, k3, List.tail_cons]
      rw [add_zero] at w2
      rw [← w2]
      exact congrFun (congrFun (congrFun (valueAt_same (a := out) (b := { out with shape := _, strides := ts, byteoffset := _ }) rfl) _) _) _
    · exact Or.inr ⟨hf, e, by rw [he]; rfl⟩

/-- Nested lists of the given shape from items in row-major order. -/
def shaped : List Nat → (Nat → Atom) → Val
  | [], x => .atom (x 0)
  | n :: ns, x => .list ((List.range n).map (fun i => shaped ns (fun j => x (i * ns.prod + j))))

theorem shaped_congr {ns : List Nat} {x y : Nat → Atom} (h : ∀ j, j < ns.prod → x j = y j) :
    shaped ns x = shaped ns y := by
  induction ns generalizing x y with
  | nil => simp only [shaped]; rw [h 0 (by simp)]
  | cons n ns ih =>
    simp only [shaped]
    congr 1
    apply List.map_congr_left
    intro i hi
    rw [List.mem_range] at hi
    refine ih (fun j hj => h _ ?_)
    rw [List.prod_cons]
    calc i * ns.prod + j < (i + 1) * ns.prod := by rw [Nat.add_mul]; omega
      _ ≤ n * ns.prod := Nat.mul_le_mul_right _ (by omega)

theorem shaped_read {b : Nd} {ns : List Nat} : ∀ {ss : List Int} {s : Int} {pos : Int} {v : Val},
    ss.length = ns.length → contiguousFrom b.itemsize ns ss = some s → b.valueAt ns ss pos = ok v →
    ∃ x : Nat → Atom, v = shaped ns x ∧
      ∀ j, j < ns.prod → b.readItem (pos + (j : Int) * (b.itemsize : Int)) = ok (x j) := by
  induction ns with
  | nil =>
    intro ss s pos v hl hc hv
    simp only [valueAt, bind_eq_ok, ok.injEq] at hv
    obtain ⟨x, h1, h2⟩ := hv
    refine ⟨fun _ => x, h2.symm, ?_⟩
    intro j hj
    obtain rfl : j = 0 := by simpa using hj
    simpa using h1
  | cons n ns ih =>
    intro ss s pos v hl hc hv
    cases ss with
    | nil => simp at hl
    | cons s' ss' =>
      have hl' : ss'.length = ns.length := by simpa using hl
      have hc' : contiguousFrom b.itemsize ns ss' = some s' := contiguousFrom_cons.mp (by rw [hc]; rfl)
      have hs' := contiguousFrom_eq hl' hc'
      obtain ⟨vs, e1, e2, e3⟩ := valueAt_cons.mp hv
      have : ∀ i, ∃ x : Nat → Atom, ∀ h : i < vs.length, vs[i] = shaped ns x ∧
          ∀ j, j < ns.prod → b.readItem (pos + (i : Int) * s' + (j : Int) * (b.itemsize : Int)) = ok (x j) := by
        intro i
        by_cases h : i < vs.length
        · obtain ⟨x, h1, h2⟩ := ih hl' hc' (e3 i h)
          exact ⟨x, fun _ => ⟨h1, h2⟩⟩
        · exact ⟨fun _ => .bool false, fun h' => absurd h' h⟩
      choose x hx using this
      refine ⟨fun k => x (k / ns.prod) (k % ns.prod), ?_, ?_⟩
      · rw [e1]
        simp only [shaped]
        congr 1
        apply List.ext_getElem
        · simp [e2]
        · intro i h1 h2
          simp only [List.getElem_map, List.getElem_range]
          rw [(hx i h1).1]
          apply shaped_congr
          intro j hj
          have hp : 0 < ns.prod := by omega
          rw [show i * ns.prod + j = j + ns.prod * i by rw [Nat.mul_comm]; omega,
            Nat.add_mul_div_left _ _ hp, Nat.div_eq_of_lt hj, Nat.zero_add, Nat.add_mul_mod_self_left,
            Nat.mod_eq_of_lt hj]
      · intro k hk
        rw [List.prod_cons] at hk
        have hp : 0 < ns.prod := by
          rcases Nat.eq_zero_or_pos ns.prod with h | h
          · rw [h] at hk; simp at hk
          · exact h
        have hi : k / ns.prod < vs.length := by rw [e2, Nat.div_lt_iff_lt_mul hp]; exact hk
        have := (hx _ hi).2 (k % ns.prod) (Nat.mod_lt _ hp)
        rw [← this]
        congr 1
        rw [hs']
        have hk2 : (k : Int) = ((ns.prod * (k / ns.prod) + k % ns.prod : Nat) : Int) := by
          rw [Nat.div_add_mod]
        rw [hk2]
        push_cast
        have e : (ns.prod * (k / ns.prod) + k % ns.prod) / ns.prod = k / ns.prod := by
          rw [Nat.div_add_mod]
        have e' : (ns.prod * (k / ns.prod) + k % ns.prod) % ns.prod = k % ns.prod := by
          rw [Nat.div_add_mod]
        rw [add_assoc]
        congr 1
        ring_nf

theorem wrapRegular_ok {p : Params} {dt : DType} {data : List Atom} {x : Nat → Atom} :
    ∀ (rest : List Nat) (n M : Nat), (∀ d ∈ rest, d ≠ 0) → data.length = M * rest.prod →
    (∀ j (h : j < data.length), data[j] = x j) →
    (wrapRegular (n :: rest) (.numpy p dt data)).Good ∧
    (wrapRegular (n :: rest) (.numpy p dt data)).len = M ∧
    ∀ i, i < M → (wrapRegular (n :: rest) (.numpy p dt data)).valD i
      = shaped rest (fun j => x (i * rest.prod + j)) := by
  intro rest
  induction rest with
  | nil =>
    intro n M _ hlen hx
    simp only [List.prod_nil, Nat.mul_one] at hlen
    refine ⟨Content.good_numpy _ _ _, hlen, ?_⟩
    intro i hi
    simp only [wrapRegular, shaped, List.prod_nil, Nat.mul_one, Nat.add_zero]
    rw [Content.valD_numpy (by omega), hx]
  | cons d rest ih =>
    intro n M hd hlen hx
    have hd0 : d ≠ 0 := hd d List.mem_cons_self
    obtain ⟨g1, g2, g3⟩ := ih d (M * d) (fun e he => hd e (List.mem_cons_of_mem _ he))
      (by rw [hlen, List.prod_cons, Nat.mul_assoc]) hx
    simp only [wrapRegular]
    have hln : (Content.regular {} (wrapRegular (d :: rest) (.numpy p dt data)) d n).len = M := by
      simp only [Content.len, g2, ne_eq, hd0, not_false_eq_true, if_true]
      exact Nat.mul_div_cancel _ (Nat.pos_of_ne_zero hd0)
    refine ⟨Content.good_regular.mpr g1, hln, ?_⟩
    intro i hi
    rw [Content.valD_regular g1 (by rw [hln]; exact hi), wrapList_default]
    simp only [shaped, Content.seg]
    congr 1
    apply List.map_congr_left
    intro j hj
    rw [List.mem_range] at hj
    rw [g3 _ (by
      calc i * d + j < (i + 1) * d := by rw [Nat.add_mul]; omega
        _ ≤ M * d := Nat.mul_le_mul_right _ (by omega))]
    apply shaped_congr
    intro k hk
    simp only [List.prod_cons]
    congr 1
    ring

theorem toRegular_ok {a : Nd} {v : Val} (hne : a.shape ≠ []) (hl : a.strides.length = a.shape.length)
    (hv : a.toVal = ok v) (hd : ∀ d ∈ a.shape.drop 2, d ≠ 0) :
    ∃ c : Content, a.toRegularArray = ok c ∧ c.Good ∧ c.toList = ok v.items ∧ v.isList = true := by
  obtain ⟨m, ns, hsh⟩ := List.exists_cons_of_ne_nil hne
  obtain ⟨b, e1, e2, e3, e4, e5, e6, e7, e8, e9⟩ := contiguous_ok hsh hl hv
  have hcon := wrapped_contiguous e3 (by rw [e2]; exact hne) e4
  obtain ⟨x, hx1, hx2⟩ := shaped_read e3 hcon e5
  rw [e2] at hx1 hx2
  unfold toRegularArray
  rw [if_neg (by simpa using hne), e1, bind_ok]
  have hdata : mapN a.shape.prod (fun (i : Nat) => b.readItem (b.byteoffset + (i : Int) * (a.itemsize : Int)))
      = ok ((List.range a.shape.prod).map x) := by
    apply mapN_eq_ok.mpr
    refine ⟨by simp, ?_⟩
    intro j hj
    simp only [List.getElem_map, List.getElem_range]
    rw [← e6]
    exact hx2 j (by simpa using hj)
  rw [hdata, bind_ok]
  refine ⟨_, rfl, ?_⟩
  have hvl : v = .list ((List.range m).map (fun i => shaped ns (fun j => x (i * ns.prod + j)))) := by
    rw [hx1, hsh]; rfl
  suffices h : (wrapRegular a.shape (.numpy a.params b.dtype ((List.range a.shape.prod).map x))).Good ∧
      (wrapRegular a.shape (.numpy a.params b.dtype ((List.range a.shape.prod).map x))).len = m ∧
      ∀ i, i < m → (wrapRegular a.shape (.numpy a.params b.dtype ((List.range a.shape.prod).map x))).valD i
        = shaped ns (fun j => x (i * ns.prod + j)) by
    obtain ⟨h1, h2, h3⟩ := h
    refine ⟨h1, ?_, by rw [hvl]; rfl⟩
    rw [h1.toList, h2, hvl]
    simp only [Val.items]
    congr 1
    apply List.map_congr_left
    intro i hi
    exact h3 i (List.mem_range.mp hi)
  rw [hsh] at hd ⊢
  cases ns with
  | nil => exact wrapRegular_ok [] m m (by simp) (by simp) (by simp)
  | cons n rest =>
    have hd' : ∀ d ∈ rest, d ≠ 0 := by simpa using hd
    by_cases hn : n = 0
    · subst hn
      obtain ⟨g1, g2, g3⟩ := wrapRegular_ok (p := a.params) (dt := b.dtype)
        (data := (List.range (m :: 0 :: rest).prod).map x) (x := x) rest 0 0 hd' (by simp) (by simp)
      simp only [wrapRegular]
      have hln : (Content.regular {} (wrapRegular (0 :: rest)
          (.numpy a.params b.dtype ((List.range (m :: 0 :: rest).prod).map x))) 0 m).len = m := by
        simp [Content.len]
      refine ⟨Content.good_regular.mpr g1, hln, ?_⟩
      intro i hi
      rw [Content.valD_regular g1 (by rw [hln]; exact hi), wrapList_default]
      simp [shaped, Content.seg]
    · exact wrapRegular_ok (n :: rest) m m (by
        intro d hd
        rcases List.mem_cons.mp hd with rfl | hd
        · exact hn
        · exact hd' d hd) (by simp) (by simp)

end Nd
end Awk
