import Verif.Model.Types
import Verif.Spec.List
/-
Vocabulary for changing the kind of the lists at one depth.
-/

namespace Awk.Spec
open Awk

/-- Two types that differ only in their lists at the given depth, which are related by `r`. -/
inductive SameBut (r : AkType → AkType → Prop) : Nat → AkType → AkType → Prop
  | unknown {k : Nat} {m : TyMeta} : SameBut r k (.unknown m) (.unknown m)
  | prim {k : Nat} {m : TyMeta} {dt : DType} : SameBut r k (.prim m dt) (.prim m dt)
  | here {t t' : AkType} : r t t' → SameBut r 1 t t'
  | list {k : Nat} {m : TyMeta} {t t' : AkType} : 1 ≤ k → SameBut r k t t' →
      SameBut r (k + 1) (.list m t) (.list m t')
  | regular {k : Nat} {m : TyMeta} {t t' : AkType} {n : Nat} : 1 ≤ k → SameBut r k t t' →
      SameBut r (k + 1) (.regular m t n) (.regular m t' n)
  | option {k : Nat} {m : TyMeta} {t t' : AkType} : SameBut r k t t' →
      SameBut r k (.option m t) (.option m t')
  | record {k : Nat} {m : TyMeta} {keys : Option (List String)} {ts ts' : List AkType} :
      ts.length = ts'.length → (∀ x ∈ ts.zip ts', SameBut r k x.1 x.2) →
      SameBut r k (.record m keys ts) (.record m keys ts')
  | union {k : Nat} {m : TyMeta} {ts ts' : List AkType} :
      ts.length = ts'.length → (∀ x ∈ ts.zip ts', SameBut r k x.1 x.2) →
      SameBut r k (.union m ts) (.union m ts')

/-- Lists of any length instead of lists of a fixed size. -/
inductive ToVar : AkType → AkType → Prop
  | regular {m : TyMeta} {t : AkType} {n : Nat} : ToVar (.regular m t n) (.list m t)
  | list {m : TyMeta} {t : AkType} : ToVar (.list m t) (.list m t)

/-- Lists of a fixed size instead of lists of any length. -/
inductive ToFixed : AkType → AkType → Prop
  | list {m : TyMeta} {t : AkType} {n : Nat} : ToFixed (.list m t) (.regular m t n)
  | regular {m : TyMeta} {t : AkType} {n : Nat} : ToFixed (.regular m t n) (.regular m t n)

end Awk.Spec

namespace Awk.Content

/-- `φ` holds of every list node at the given depth. -/
inductive LevelAt (φ : Content → Prop) : Nat → Content → Prop
  | here {c : Content} : c.isListNode = true → φ c → LevelAt φ 1 c
  | inside {c : Content} {a : Nat} : c.isListNode = true → 1 ≤ a →
      (∀ d ∈ c.children, LevelAt φ a d) → LevelAt φ (a + 1) c
  | other {c : Content} {a : Nat} : c.isListNode = false → (∀ d ∈ c.children, LevelAt φ a d) →
      LevelAt φ a c

end Awk.Content

namespace Awk.Content

/-- The lists of this node have the same length, and its offsets lie within the content. -/
def SameLengths (c : Content) : Prop :=
  (∀ p offsets d, c = .listOffset p offsets d → ∀ o ∈ offsets, 0 ≤ o ∧ o ≤ d.len) ∧
  ∀ vs, c.toList = .ok vs → ∀ v ∈ vs, ∀ w ∈ vs, v.items.length = w.items.length

end Awk.Content
