import Verif.Model.WithParameter
import Verif.Model.Like
import Verif.Lemmas.Shape
/-
Lemmas for `ak.with_parameter`.
-/

namespace Awk
open R

theorem lookup_filter_self (key : String) : ∀ (l : List (String × String)),
    (l.filter (fun kv => kv.1 ≠ key)).lookup key = none
  | [] => rfl
  | (k, v) :: l => by
    by_cases h : k = key
    · simp only [List.filter_cons, h, ne_eq, not_true_eq_false, decide_false, Bool.false_eq_true, if_false]
      exact lookup_filter_self key l
    · simp only [List.filter_cons, h, ne_eq, not_false_eq_true, decide_true, if_true, List.lookup_cons]
      rw [show (key == k) = false from by simp [Ne.symm h]]
      exact lookup_filter_self key l

theorem lookup_filter_ne {key other : String} (hk : other ≠ key) : ∀ (l : List (String × String)),
    (l.filter (fun kv => kv.1 ≠ key)).lookup other = l.lookup other
  | [] => rfl
  | (k, v) :: l => by
    by_cases h : k = key
    · simp only [List.filter_cons, h, ne_eq, not_true_eq_false, decide_false, Bool.false_eq_true, if_false, List.lookup_cons]
      rw [show (other == key) = false from by simp [hk], lookup_filter_ne hk l]
    · simp only [List.filter_cons, h, ne_eq, not_false_eq_true, decide_true, if_true, List.lookup_cons]
      rw [lookup_filter_ne hk l]

theorem lookup_append_one {key value other : String} (l : List (String × String)) :
    (l ++ [(key, value)]).lookup other =
      (l.lookup other).or (if other = key then some value else none) := by
  rw [List.lookup_append]
  congr 1
  by_cases h : other = key
  · simp [h]
  · simp [h, List.lookup]
    rw [show (other == key) = false from by simp [h]]

namespace Params

theorem arrKindOf_name {s : String} {a : ArrKind} (h : arrKindOf s = some a) : a.name = some s := by
  unfold arrKindOf at h
  split at h <;> first | (simp only [Option.some.injEq] at h; subst h; rfl) | exact absurd h (by simp)

/-- The parameter that was set has the value. -/
theorem setParameter_self {p q : Params} {key : String} {value : ParamValue} (h : p.setParameter key value = some q) :
    q.parameter key = value.dumps := by
  unfold setParameter at h
  unfold parameter
  split at h
  · rename_i hk
    rw [if_pos hk]
    split at h
    · rw [Option.map_eq_some_iff] at h
      obtain ⟨a, ha, rfl⟩ := h
      simp [arrKindOf_name ha]
    · split at h
      · rename_i hv
        simp only [Option.some.injEq] at h
        subst h
        rw [hv]
        rfl
      · exact absurd h (by simp)
  · rename_i hk
    rw [if_neg hk]
    split at h
    · rename_i hr
      rw [if_pos hr]
      split at h
      · simp only [Option.some.injEq] at h
        subst h
        rfl
      · split at h
        · rename_i hv
          simp only [Option.some.injEq] at h
          subst h
          rw [hv]
          rfl
        · exact absurd h (by simp)
    · rename_i hr
      rw [if_neg hr]
      split at h
      · rename_i hv
        simp only [Option.some.injEq] at h
        subst h
        rw [lookup_filter_self, hv]
        rfl
      · simp only [Option.some.injEq] at h
        subst h
        simp only [setOther]
        rw [lookup_append_one, lookup_filter_self, if_pos rfl]
        rfl

/-- The other parameters stay. -/
theorem setParameter_other {p q : Params} {key other : String} {value : ParamValue}
    (h : p.setParameter key value = some q) (hk : other ≠ key) : q.parameter other = p.parameter other := by
  unfold setParameter at h
  unfold parameter
  split at h
  · rename_i hk'
    have h1 : other ≠ "__array__" := fun e => hk (e.trans hk'.symm)
    rw [if_neg h1, if_neg h1]
    split at h
    · rw [Option.map_eq_some_iff] at h
      obtain ⟨a, ha, rfl⟩ := h
      rfl
    · split at h
      · simp only [Option.some.injEq] at h
        subst h
        rfl
      · exact absurd h (by simp)
  · split at h
    · rename_i hr
      have h1 : other ≠ "__record__" := fun e => hk (e.trans hr.symm)
      rw [if_neg h1, if_neg h1]
      split at h
      · simp only [Option.some.injEq] at h
        subst h
        rfl
      · split at h
        · simp only [Option.some.injEq] at h
          subst h
          rfl
        · exact absurd h (by simp)
    · split at h
      · simp only [Option.some.injEq] at h
        subst h
        simp only [lookup_filter_ne hk]
      · simp only [Option.some.injEq] at h
        subst h
        simp only [setOther]
        rw [lookup_append_one, lookup_filter_ne hk, if_neg hk, Option.or_none]

theorem setParameter_arr {p q : Params} {key : String} {value : ParamValue} (h : p.setParameter key value = some q)
    (hk : key ≠ "__array__") : q.arr = p.arr := by
  unfold setParameter at h
  rw [if_neg hk] at h
  split at h
  · split at h
    · simp only [Option.some.injEq] at h
      subst h
      rfl
    · split at h
      · simp only [Option.some.injEq] at h
        subst h
        rfl
      · exact absurd h (by simp)
  · split at h <;>
    · simp only [Option.some.injEq] at h
      subst h
      rfl

theorem setParameter_some (p : Params) {key : String} (value : ParamValue) (ha : key ≠ "__array__")
    (hr : key ≠ "__record__") : ∃ q, p.setParameter key value = some q := by
  unfold setParameter
  rw [if_neg ha, if_neg hr]
  split <;> exact ⟨_, rfl⟩

end Params

namespace Content

theorem setParameters_params (q : Params) (c : Content) : (c.setParameters q).params = q := by
  cases c <;> rfl

theorem setParameters_children (q : Params) (c : Content) : (c.setParameters q).children = c.children := by
  cases c <;> rfl

theorem setParameters_without (q : Params) (c : Content) :
    (c.setParameters q).withoutParameters = c.withoutParameters := by
  cases c <;> rfl

theorem setParameters_len (q : Params) (c : Content) : (c.setParameters q).len = c.len := by
  cases c <;> rfl

theorem setParameters_validity {q : Params} {c : Content} (h : q.arr = c.params.arr) :
    (c.setParameters q).validity = c.validity := by
  cases c <;> simp only [params] at h <;> simp only [setParameters, validity, paramsOk, paramsOkList, h]

theorem setParameters_toList {q : Params} {c : Content} (h : q.arr = c.params.arr) :
    (c.setParameters q).toList = c.toList := by
  unfold toList
  rw [setParameters_len]
  congr 1
  funext i
  cases c <;> simp only [params] at h <;> simp only [setParameters, val, wrapList, h]

end Content
end Awk
