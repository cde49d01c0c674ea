import Verif.Spec.Builder
import Verif.Lemmas.MergeVal
/-
The builder nodes represent the completed values and the begun value of the specification.
-/

namespace Awk
open R Spec
open Content (pk uk UOk)

namespace Builder

/-- The kind of a node that is not unknown, an option or a union. -/
def kind : Builder → Option Kind
  | bool _ => some .bool
  | int _ => some .int
  | float _ => some .float
  | str utf8 _ _ => some (.str utf8)
  | list .. => some .list
  | tuple cs _ _ _ => some (.tuple cs.length)
  | record _ _ name _ _ _ _ => some (.record name)
  | _ => none

/-- The end positions of the pieces, after 0. -/
def offs (ls : List (List α)) : List Nat :=
  (List.range (ls.length + 1)).map (fun k => (ls.take k).flatten.length)

theorem offs_append (ls : List (List α)) (l : List α) :
    offs (ls ++ [l]) = offs ls ++ [(ls.flatten ++ l).length] := by
  unfold offs
  rw [List.length_append, List.length_singleton, List.range_succ, List.map_append]
  congr 1
  · apply List.map_congr_left
    intro k hk
    rw [List.mem_range] at hk
    rw [List.take_append_of_le_length (by omega)]
  · simp only [List.map_cons, List.map_nil]
    rw [List.take_of_length_le (by simp)]
    simp

theorem offs_length (ls : List (List α)) : (offs ls).length = ls.length + 1 := by simp [offs]

/-- The string of the encoding. -/
def strVal (utf8 : Bool) (codes : List Nat) : Val :=
  if utf8 then .str (codes.map (fun (n : Nat) => .atom (.int n)))
  else .bytes (codes.map (fun (n : Nat) => .atom (.int n)))

/-- The number is kept as this real. -/
def NumIs (v : Val) (q : Rat) : Prop :=
  v = .atom (.real q) ∨ ∃ i : Int, q = i ∧ v = .atom (.int i)

/-- The value of a field of a record. -/
def colOf (k : String) (fs : List (String × Val)) : Val := (fs.lookup k).getD .null

/-- The node holds the completed values `done`, and `part` is the begun value. -/
inductive Rep (utf8 : Bool) (kinds : List Kind) : Builder → List Val → Part → Prop
  | unknown (n : Nat) : Rep utf8 kinds (unknown n) (List.replicate n .null) .idle
  | bool {xs : List Bool} : .bool ∈ kinds →
      Rep utf8 kinds (bool xs) (xs.map (fun x => .atom (.bool x))) .idle
  | int {xs : List Int} : .int ∈ kinds →
      Rep utf8 kinds (int xs) (xs.map (fun x => .atom (.int x))) .idle
  | float {xs : List Rat} {done : List Val} : .float ∈ kinds → List.Forall₂ NumIs done xs →
      Rep utf8 kinds (float xs) done .idle
  | str {ss : List (List Nat)} : .str utf8 ∈ kinds →
      Rep utf8 kinds (str utf8 (offs ss) ss.flatten) (ss.map (strVal utf8)) .idle
  | listIdle {ls : List (List Val)} {c : Builder} : .list ∈ kinds →
      Rep utf8 kinds c ls.flatten .idle →
      Rep utf8 kinds (list (ints (offs ls)) c false) (ls.map .list) .idle
  | listOpen {ls : List (List Val)} {rest : List Val} {sub : Part} {c : Builder} : .list ∈ kinds →
      Rep utf8 kinds c (ls.flatten ++ rest) sub →
      Rep utf8 kinds (list (ints (offs ls)) c true) (ls.map .list) (.list rest sub)
  | tupleIdle {cs : List Builder} {rows : List (List Val)} {next : Int} :
      .tuple cs.length ∈ kinds → (∀ r ∈ rows, r.length = cs.length) →
      (∀ (i : Nat) c, cs[i]? = some c →
        Rep utf8 kinds c (rows.map (fun r => r[i]?.getD .null)) .idle) →
      Rep utf8 kinds (tuple cs rows.length false next) (rows.map .tuple) .idle
  | tupleOpen {cs : List Builder} {rows : List (List Val)} {next : Int}
      {fields : List (List Val)} {cur : Option Nat} {sub : Part} :
      .tuple cs.length ∈ kinds → (∀ r ∈ rows, r.length = cs.length) → fields.length = cs.length →
      (∀ (i : Nat) c, cs[i]? = some c →
        Rep utf8 kinds c (rows.map (fun r => r[i]?.getD .null) ++ fields[i]?.getD [])
          (if cur = some i then sub else .idle)) →
      (cur = none → sub = .idle ∧ next = -1) →
      (∀ i, cur = some i → i < cs.length ∧ next = i) →
      Rep utf8 kinds (tuple cs rows.length true next) (rows.map .tuple) (.tuple fields cur sub)
  | recordIdle {cs : List Builder} {keys : List String} {name : Option String}
      {rows : List (List (String × Val))} {next : Int} {tryFrom : Nat} :
      .record name ∈ kinds → name ≠ some "" → keys.length = cs.length → keys.Nodup →
      (∀ fs ∈ rows, (fs.map Prod.fst).Nodup ∧ ∀ k ∈ fs.map Prod.fst, k ∈ keys) →
      (∀ (i : Nat) c k, cs[i]? = some c → keys[i]? = some k →
        Rep utf8 kinds c (rows.map (colOf k)) .idle) →
      Rep utf8 kinds (record cs keys name rows.length false next tryFrom) (rows.map .record) .idle
  | recordOpen {cs : List Builder} {keys : List String} {name : Option String}
      {rows : List (List (String × Val))} {next : Int} {tryFrom : Nat}
      {fields : List (String × List Val)} {cur : Option String} {sub : Part} :
      .record name ∈ kinds → name ≠ some "" → keys.length = cs.length → keys.Nodup →
      (∀ fs ∈ rows, (fs.map Prod.fst).Nodup ∧ ∀ k ∈ fs.map Prod.fst, k ∈ keys) →
      (fields.map Prod.fst).Nodup → (∀ k ∈ fields.map Prod.fst, k ∈ keys) →
      (∀ (i : Nat) c k, cs[i]? = some c → keys[i]? = some k →
        Rep utf8 kinds c (rows.map (colOf k) ++ (fields.lookup k).getD [])
          (if cur = some k then sub else .idle)) →
      (cur = none → sub = .idle ∧ next = -1) →
      (∀ k, cur = some k → k ∈ fields.map Prod.fst ∧ ∃ i : Nat, keys[i]? = some k ∧ next = i) →
      Rep utf8 kinds (record cs keys name rows.length true next tryFrom) (rows.map .record)
        (.record fields cur sub)
  | option {index : List Int} {c : Builder} {items : List Val} {part : Part} :
      Rep utf8 kinds c items part → (∀ j ∈ index, j < 0 ∨ j < items.length) →
      Rep utf8 kinds (option index c) (index.map (pk items)) part
  | union {tags index : List Int} {cs : List Builder} {current : Int} {cols : List (List Val)}
      {ks : List Kind} {part : Part} :
      cs.map kind = ks.map some → ks.Nodup → (∀ k ∈ ks, k ∈ kinds) →
      List.Forall₂ (UOk (cols.map List.length)) tags index → cols.length = cs.length →
      (∀ (i : Nat) c items, cs[i]? = some c → cols[i]? = some items →
        Rep utf8 kinds c items (if current = i then part else .idle)) →
      (current = -1 ∧ part = .idle ∨
        0 ≤ current ∧ current < cs.length ∧ part.isIdle = false) →
      Rep utf8 kinds (union tags index cs current) (List.zipWith (uk cols) tags index) part

variable {utf8 : Bool} {kinds : List Kind}

theorem Rep.length_eq {b : Builder} {done : List Val} {part : Part}
    (h : Rep utf8 kinds b done part) : b.length = done.length := by
  cases h with
  | float _ h => simp [Builder.length, h.length_eq]
  | str => simp [Builder.length, offs_length]
  | listIdle => simp [Builder.length, ints, offs_length]
  | listOpen => simp [Builder.length, ints, offs_length]
  | union _ _ _ h => simp [Builder.length, h.length_eq]
  | _ => simp [Builder.length]

theorem Rep.active_eq {b : Builder} {done : List Val} {part : Part}
    (h : Rep utf8 kinds b done part) : b.active = !part.isIdle := by
  induction h with
  | option _ _ ih => simpa [active] using ih
  | union _ _ _ _ _ _ hc _ =>
    rcases hc with ⟨rfl, rfl⟩ | ⟨h1, h2, h3⟩
    · simp [active, Part.isIdle]
    · simp only [active, h3]
      simp; omega
  | _ => simp [active, Part.isIdle]

theorem Part.eq_idle {p : Part} (h : p.isIdle = true) : p = .idle := by
  cases p <;> simp_all [Part.isIdle]

end Builder
end Awk
