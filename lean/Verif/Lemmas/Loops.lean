import Verif.Lemmas.Option
import Verif.Model.List
/-
Loops that append segments, that fill running totals and that write segments in place.
-/

namespace Awk
open R

theorem pushOpt_append {done rest : List α} {x : α} (h : 1 ≤ rest.length) :
    pushOpt (done.length, done ++ rest) (some x)
      = ok ((done ++ [x]).length, done ++ [x] ++ rest.drop 1) := by
  cases rest with
  | nil => simp at h
  | cons y rest =>
    simp only [pushOpt]
    rw [wr_nat_ok (by simp), bind_ok]
    simp

/-- A loop whose body appends the segment `S i` at the cursor. -/
theorem forN_append {n : Nat} {body : Nat → Nat × List α → R (Nat × List α)} (S : Nat → List α)
    (hb : ∀ i, i < n → ∀ done rest : List α, (S i).length ≤ rest.length →
      body i (done.length, done ++ rest)
        = ok ((done ++ S i).length, done ++ S i ++ rest.drop (S i).length))
    {done rest : List α} (hr : (((List.range n).map S).flatten).length ≤ rest.length) :
    forN n body (done.length, done ++ rest)
      = ok ((done ++ ((List.range n).map S).flatten).length,
          done ++ ((List.range n).map S).flatten
            ++ rest.drop (((List.range n).map S).flatten).length) := by
  induction n with
  | zero => simp [forN]
  | succ n ih =>
    have hs : ((List.range (n + 1)).map S).flatten = ((List.range n).map S).flatten ++ S n := by
      simp [List.range_succ]
    rw [hs, List.length_append] at hr
    rw [forN_succ, ih (fun i hi => hb i (by omega)) (by omega), bind_ok,
      hb n (by omega) _ _ (by rw [List.length_drop]; omega), hs]
    simp [Nat.add_comm, Nat.add_left_comm]

/-- The same, starting from an output buffer of exactly the right length. -/
theorem forN_append0 {n : Nat} {body : Nat → Nat × List α → R (Nat × List α)} (S : Nat → List α)
    (hb : ∀ i, i < n → ∀ done rest : List α, (S i).length ≤ rest.length →
      body i (done.length, done ++ rest)
        = ok ((done ++ S i).length, done ++ S i ++ rest.drop (S i).length))
    {out : List α} (hr : out.length = (((List.range n).map S).flatten).length) :
    forN n body (0, out)
      = ok ((((List.range n).map S).flatten).length, ((List.range n).map S).flatten) := by
  have := forN_append S hb (done := []) (rest := out) (by omega)
  simp only [List.nil_append, List.length_nil] at this
  rw [this, List.drop_eq_nil_of_le (by omega), List.append_nil]

/-- The inner loops `for (j = a; j < b; j++) { out[k] = h(j); k++; }`. -/
theorem forFrom_push {a b : Int} {body : Int → Nat × List α → R (Nat × List α)} (h : Int → α)
    (hb : ∀ j st, body j st = pushOpt st (some (h j))) {done rest : List α}
    (hr : (b - a).toNat ≤ rest.length) :
    forFrom a b body (done.length, done ++ rest)
      = ok ((done ++ (List.range (b - a).toNat).map (fun (k : Nat) => h (a + k))).length,
          done ++ (List.range (b - a).toNat).map (fun (k : Nat) => h (a + k)) ++ rest.drop (b - a).toNat) := by
  unfold forFrom
  generalize (b - a).toNat = m at hr ⊢
  induction m with
  | zero => simp [forN]
  | succ m ih =>
    rw [forN_succ, ih (by omega), bind_ok, hb, pushOpt_append (by rw [List.length_drop]; omega)]
    simp [List.range_succ]

/-- A loop whose body sets position `i + 1` from the positions already filled. -/
theorem forN_running {n : Nat} {body : Nat → List α → R (List α)} (G : Nat → α) {out : List α}
    (hlen : out.length = n + 1) (h0 : out[0]? = some (G 0))
    (hb : ∀ i, i < n → ∀ o : List α, o.length = n + 1 → o[i]? = some (G i) →
      body i o = ok (o.set (i + 1) (G (i + 1)))) :
    forN n body out = ok ((List.range (n + 1)).map G) := by
  suffices hs : ∀ m, m ≤ n → ∃ o, forN m body out = ok o ∧ o.length = n + 1 ∧
      ∀ j, j ≤ m → o[j]? = some (G j) by
    obtain ⟨o, h1, h2, h3⟩ := hs n (Nat.le_refl _)
    rw [h1]
    congr 1
    apply List.ext_getElem?
    intro j
    by_cases hj : j ≤ n
    · rw [h3 j hj]; simp [show j < n + 1 by omega]
    · rw [List.getElem?_eq_none (by omega), List.getElem?_eq_none (by simp; omega)]
  intro m
  induction m with
  | zero =>
    intro _
    exact ⟨out, rfl, hlen, fun j hj => by have : j = 0 := by omega
                                          subst this; exact h0⟩
  | succ m ih =>
    intro hm
    obtain ⟨o, h1, h2, h3⟩ := ih (by omega)
    refine ⟨_, by rw [forN_succ, h1, bind_ok, hb m (by omega) o h2 (h3 m (Nat.le_refl _))],
      by simpa using h2, ?_⟩
    intro j hj
    rw [List.getElem?_set]
    by_cases he : m + 1 = j
    · subst he; rw [if_pos rfl, if_pos (by omega)]
    · rw [if_neg he]; exact h3 j (by omega)

/-- The sum of the first `n` values. -/
def sumTo (f : Nat → Nat) : Nat → Nat
  | 0 => 0
  | n + 1 => sumTo f n + f n

@[simp] theorem sumTo_zero (f : Nat → Nat) : sumTo f 0 = 0 := rfl
theorem sumTo_succ (f : Nat → Nat) (n : Nat) : sumTo f (n + 1) = sumTo f n + f n := rfl

theorem sumTo_mono {f : Nat → Nat} {m n : Nat} (h : m ≤ n) : sumTo f m ≤ sumTo f n := by
  induction n with
  | zero => have : m = 0 := by omega
            subst this; exact Nat.le_refl _
  | succ n ih =>
    by_cases he : m = n + 1
    · subst he; exact Nat.le_refl _
    · rw [sumTo_succ]; have := ih (by omega); omega

theorem sumTo_congr {f g : Nat → Nat} {n : Nat} (h : ∀ i, i < n → f i = g i) :
    sumTo f n = sumTo g n := by
  induction n with
  | zero => rfl
  | succ n ih => rw [sumTo_succ, sumTo_succ, ih (fun i hi => h i (by omega)), h n (by omega)]

theorem flatten_map_length {n : Nat} (S : Nat → List α) :
    (((List.range n).map S).flatten).length = sumTo (fun i => (S i).length) n := by
  induction n with
  | zero => rfl
  | succ n ih =>
    rw [sumTo_succ, ← ih]
    simp [List.range_succ]

/-- Element `k` of segment `i` of a concatenation. -/
theorem flatten_map_get {n : Nat} (S : Nat → List α) {i k : Nat} (hi : i < n)
    (hk : k < (S i).length) :
    (((List.range n).map S).flatten)[sumTo (fun i => (S i).length) i + k]? = (S i)[k]? := by
  induction n with
  | zero => omega
  | succ n ih =>
    have hs : ((List.range (n + 1)).map S).flatten = ((List.range n).map S).flatten ++ S n := by
      simp [List.range_succ]
    rw [hs]
    by_cases he : i = n
    · subst he
      rw [List.getElem?_append_right (by rw [flatten_map_length]; omega), flatten_map_length]
      congr 1; omega
    · have hlt : i < n := by omega
      have h1 := sumTo_mono (f := fun i => (S i).length) (show i + 1 ≤ n by omega)
      rw [sumTo_succ] at h1
      rw [List.getElem?_append_left (by rw [flatten_map_length]; omega), ih hlt]

/-- Every position of a concatenation lies in a segment. -/
theorem sumTo_locate {f : Nat → Nat} {n j : Nat} (h : j < sumTo f n) :
    ∃ i k, i < n ∧ k < f i ∧ j = sumTo f i + k := by
  induction n with
  | zero => simp at h
  | succ n ih =>
    rw [sumTo_succ] at h
    by_cases hj : j < sumTo f n
    · obtain ⟨i, k, h1, h2, h3⟩ := ih hj
      exact ⟨i, k, by omega, h2, h3⟩
    · exact ⟨n, j - sumTo f n, by omega, by omega, by omega⟩

/-- A loop whose body overwrites the segment of positions `sumTo f i, …` with `S i`. -/
theorem forN_segments {n : Nat} {body : Nat → List α → R (List α)} (S : Nat → List α)
    (hb : ∀ i, i < n → ∀ done rest : List α, done.length = sumTo (fun i => (S i).length) i →
      (S i).length ≤ rest.length →
      body i (done ++ rest) = ok (done ++ S i ++ rest.drop (S i).length))
    {out : List α} (hr : out.length = (((List.range n).map S).flatten).length) :
    forN n body out = ok (((List.range n).map S).flatten) := by
  suffices hs : ∀ m, m ≤ n → forN m body out = ok (((List.range m).map S).flatten
      ++ out.drop (((List.range m).map S).flatten).length) by
    rw [hs n (Nat.le_refl _), List.drop_eq_nil_of_le (by omega), List.append_nil]
  intro m
  induction m with
  | zero => intro _; simp [forN]
  | succ m ih =>
    intro hm
    have hsplit : ((List.range (m + 1)).map S).flatten = ((List.range m).map S).flatten ++ S m := by
      simp [List.range_succ]
    have hle : (((List.range (m + 1)).map S).flatten).length
        ≤ (((List.range n).map S).flatten).length := by
      rw [flatten_map_length, flatten_map_length]; exact sumTo_mono hm
    rw [hsplit, List.length_append] at hle
    rw [forN_succ, ih (by omega), bind_ok, hb m (by omega) _ _ (flatten_map_length S)
      (by rw [List.length_drop]; omega), hsplit]
    simp [Nat.add_comm]

/-- The inner loops `for (j = a; j < b; j++) out[o + j] = h(j);`, writing after `done`. -/
theorem forFrom_segment {a b o : Int} {body : Int → List α → R (List α)} (h : Int → α)
    (hb : ∀ j out, body j out = wr out (o + j) (h j)) {done rest : List α}
    (hd : (done.length : Int) = o + a) (hr : (b - a).toNat ≤ rest.length) :
    forFrom a b body (done ++ rest)
      = ok (done ++ (List.range (b - a).toNat).map (fun (k : Nat) => h (a + k))
          ++ rest.drop (b - a).toNat) := by
  unfold forFrom
  generalize hm : (b - a).toNat = m at hr ⊢
  clear hm
  induction m with
  | zero => simp [forN]
  | succ m ih =>
    rw [forN_succ, ih (by omega), bind_ok, hb]
    have hlt : m < rest.length := by omega
    rw [List.drop_eq_getElem_cons hlt]
    rw [wr_ok (by omega) (by simp; omega)]
    congr 1
    have he : (o + (a + (m : Int))).toNat
        = (done ++ (List.range m).map (fun (k : Nat) => h (a + k))).length := by simp; omega
    rw [he, List.set_append_right _ _ (by omega), Nat.sub_self, List.set_cons_zero]
    simp [List.range_succ]

theorem mapR_length {f : α → R β} {l : List α} {l' : List β} (h : mapR f l = ok l') :
    l'.length = l.length := by
  induction l generalizing l' with
  | nil => simp only [mapR] at h; cases h; rfl
  | cons a l ih =>
    simp only [mapR] at h
    obtain ⟨b, _, h⟩ := bind_eq_ok.mp h
    obtain ⟨bs, h2, h⟩ := bind_eq_ok.mp h
    cases h
    simp [ih h2]

theorem mapR_forall₂ {f : α → R β} {l : List α} {l' : List β} :
    mapR f l = ok l' ↔ List.Forall₂ (fun a b => f a = ok b) l l' := by
  induction l generalizing l' with
  | nil =>
    simp only [mapR, R.ok.injEq]
    constructor
    · rintro rfl; exact .nil
    · intro h; cases h; rfl
  | cons a l ih =>
    simp only [mapR, bind_eq_ok]
    constructor
    · rintro ⟨b, h1, bs, h2, h3⟩
      cases h3
      exact .cons h1 (ih.mp h2)
    · intro h
      cases h with
      | cons h1 h2 => exact ⟨_, h1, _, ih.mpr h2, rfl⟩

theorem mapR_sat {f : α → R β} {l : List α} {P : α → β → Prop}
    (h : ∀ a ∈ l, (f a).Sat (P a)) : (mapR f l).Sat (fun l' => List.Forall₂ P l l') := by
  induction l with
  | nil => simp only [mapR, sat_ok]; exact .nil
  | cons a l ih =>
    simp only [mapR]
    refine (h a List.mem_cons_self).bind (fun b hb => ?_)
    refine (ih (fun a ha => h a (List.mem_cons_of_mem _ ha))).bind (fun bs hbs => ?_)
    exact .cons hb hbs

theorem mapR_tot {f : α → R β} {l : List α} {h : Prop} {P : α → β → Prop}
    (hf : ∀ a ∈ l, (f a).Tot h (P a)) : (mapR f l).Tot h (fun l' => List.Forall₂ P l l') := by
  induction l with
  | nil => simp only [mapR]; exact .ok .nil
  | cons a l ih =>
    simp only [mapR]
    refine (hf a List.mem_cons_self).bind (fun b hb => ?_)
    refine (ih (fun a ha => hf a (List.mem_cons_of_mem _ ha))).bind (fun bs hbs => ?_)
    exact .ok (.cons hb hbs)


end Awk
