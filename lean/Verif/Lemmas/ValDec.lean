import Verif.Lemmas.ValEq
/-
Equality of values can be decided.
-/

namespace Awk

mutual
theorem Val.same_refl : ∀ v : Val, v.same v = true
  | .null => rfl
  | .atom a => by simp [Val.same]
  | .str xs => by simp [Val.same, Val.sameList_refl xs]
  | .bytes xs => by simp [Val.same, Val.sameList_refl xs]
  | .list xs => by simp [Val.same, Val.sameList_refl xs]
  | .tuple xs => by simp [Val.same, Val.sameList_refl xs]
  | .record xs => by simp [Val.same, Val.sameFields_refl xs]
theorem Val.sameList_refl : ∀ vs : List Val, Val.sameList vs vs = true
  | [] => rfl
  | v :: vs => by simp [Val.sameList, Val.same_refl v, Val.sameList_refl vs]
theorem Val.sameFields_refl : ∀ vs : List (String × Val), Val.sameFields vs vs = true
  | [] => rfl
  | (k, v) :: vs => by simp [Val.sameFields, Val.same_refl v, Val.sameFields_refl vs]
end

instance : DecidableEq Val := fun v w =>
  if h : v.same w = true then .isTrue (Val.eq_of_same v w h)
  else .isFalse fun e => h (e ▸ Val.same_refl v)

end Awk
