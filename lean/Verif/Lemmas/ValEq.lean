import Verif.Model.Content
/-
A Boolean equality of listed values, so that the kernel can compare them.
-/

namespace Awk
open R

mutual
/-- Equality of values. -/
def Val.same : Val → Val → Bool
  | .null, .null => true
  | .atom a, .atom b => decide (a = b)
  | .str xs, .str ys => Val.sameList xs ys
  | .bytes xs, .bytes ys => Val.sameList xs ys
  | .list xs, .list ys => Val.sameList xs ys
  | .tuple xs, .tuple ys => Val.sameList xs ys
  | .record xs, .record ys => Val.sameFields xs ys
  | _, _ => false
/-- Equality of lists of values. -/
def Val.sameList : List Val → List Val → Bool
  | [], [] => true
  | x :: xs, y :: ys => x.same y && Val.sameList xs ys
  | _, _ => false
/-- Equality of fields. -/
def Val.sameFields : List (String × Val) → List (String × Val) → Bool
  | [], [] => true
  | (k, x) :: xs, (l, y) :: ys => decide (k = l) && x.same y && Val.sameFields xs ys
  | _, _ => false
end

mutual
theorem Val.eq_of_same : ∀ v w : Val, v.same w = true → v = w
  | .null, w, h => by cases w <;> simp [Val.same] at h; rfl
  | .atom a, w, h => by cases w <;> simp [Val.same] at h; rw [h]
  | .str xs, w, h => by cases w <;> simp [Val.same] at h; rw [Val.eq_of_sameList _ _ h]
  | .bytes xs, w, h => by cases w <;> simp [Val.same] at h; rw [Val.eq_of_sameList _ _ h]
  | .list xs, w, h => by cases w <;> simp [Val.same] at h; rw [Val.eq_of_sameList _ _ h]
  | .tuple xs, w, h => by cases w <;> simp [Val.same] at h; rw [Val.eq_of_sameList _ _ h]
  | .record xs, w, h => by cases w <;> simp [Val.same] at h; rw [Val.eq_of_sameFields _ _ h]
theorem Val.eq_of_sameList : ∀ vs ws : List Val, Val.sameList vs ws = true → vs = ws
  | [], ws, h => by cases ws <;> simp [Val.sameList] at h; rfl
  | v :: vs, ws, h => by
    cases ws <;> simp [Val.sameList] at h
    rw [Val.eq_of_same _ _ h.1, Val.eq_of_sameList _ _ h.2]
theorem Val.eq_of_sameFields : ∀ vs ws : List (String × Val), Val.sameFields vs ws = true → vs = ws
  | [], ws, h => by cases ws <;> simp [Val.sameFields] at h; rfl
  | (k, v) :: vs, ws, h => by
    cases ws with
    | nil => simp [Val.sameFields] at h
    | cons w ws =>
      obtain ⟨l, w⟩ := w
      simp [Val.sameFields] at h
      rw [h.1.1, Val.eq_of_same _ _ h.1.2, Val.eq_of_sameFields _ _ h.2]
end

/-- Show that a computation gives a value, by `decide +kernel`. -/
theorem R.gives {x : R Val} {v : Val} (h : (match x with | ok w => w.same v | _ => false) = true) :
    x = ok v := by
  cases x with
  | ok w => rw [Val.eq_of_same _ _ h]
  | err e => cases h
  | ub => cases h

/-- Show that a computation gives a list of values, by `decide +kernel`. -/
theorem R.lists {x : R (List Val)} {v : List Val}
    (h : (match x with | ok w => Val.sameList w v | _ => false) = true) : x = ok v := by
  cases x with
  | ok w => rw [Val.eq_of_sameList _ _ h]
  | err e => cases h
  | ub => cases h

/-- Show that a computation raises, by `decide +kernel`. -/
theorem R.raises {α : Type} {x : R α} (h : (match x with | err _ => true | _ => false) = true) :
    x.IsErr := by
  cases x with
  | ok w => cases h
  | err e => exact ⟨e, rfl⟩
  | ub => cases h

end Awk
