import Verif.Lemmas.StridedGet
/-
C46, C54 and C55: NumPy arrays with any shape and strides.
-/

namespace Awk
namespace Props
open R Spec

/-- **C46.** A NumPy array with any shape and any strides, all of whose items are inside of its
buffer, can be made contiguous: the result is contiguous in memory, has the same shape and type and
shows the same value. -/
theorem C46_contiguous (a : Nd) (v : Val) (hne : a.shape ≠ []) (hl : a.strides.length = a.shape.length)
    (hv : a.toVal = ok v) :
    ∃ b : Nd, a.contiguous = ok b ∧ b.toVal = ok v ∧ b.shape = a.shape ∧ b.dtype = a.dtype ∧
      b.params = a.params ∧ b.strides = Nd.cstrides b.itemsize b.shape := by
  obtain ⟨m, ns, hsh⟩ := List.exists_cons_of_ne_nil hne
  obtain ⟨b, h1, h2, h3, h4, h5, _, _, h8, h9⟩ := Nd.contiguous_ok hsh hl hv
  exact ⟨b, h1, h5, h2, h8, h9, Nd.cstrides_of_contiguous h3 h4⟩

/-- **C54**, for shapes in which only the first two dimensions can be zero: turning a NumPy array
into lists of fixed size keeps the value. -/
theorem C54_toRegular_partial (a : Nd) (vs : List Val) (hne : a.shape ≠ [])
    (hl : a.strides.length = a.shape.length) (hv : a.toVal = ok (.list vs))
    (hd : ∀ d ∈ a.shape.drop 2, d ≠ 0) :
    ∃ c : Content, a.toRegularArray = ok c ∧ c.toList = ok vs := by
  obtain ⟨c, h1, _, h2, _⟩ := Nd.toRegular_ok hne hl hv hd
  exact ⟨c, h1, h2⟩

/-- **C55.** Slicing a NumPy array of any shape and strides by integers, ranges, `...`, `newaxis` and
index arrays of one shape gives what the slice selects from the nested lists that the array shows,
in an array of the expected shape. -/
theorem C55_getitem (a : Nd) (v : Val) (items : List NdItem) (shape : List Nat) (hne : a.shape ≠ [])
    (hl : a.strides.length = a.shape.length) (hv : a.toVal = ok v) (hok : ∀ it ∈ items, NdItemOk shape it)
    (hfit : fitsShape a.shape (expandEllipsis a.shape.length items) = true) :
    ∃ (out : Nd) (w : Val), a.getitem items = ok out ∧
      select (expandEllipsis a.shape.length items) none v = some w ∧ out.toVal = ok w ∧
      out.shape = slicedShape a.shape true (expandEllipsis a.shape.length items) ∧
      out.strides.length = out.shape.length := by
  rcases Nd.getitem_ok hne hl hv hok with ⟨_, h⟩ | ⟨h, _⟩
  · exact h
  · rw [hfit] at h; cases h

/-- **C55.** A slice with an index out of range or with too many items is refused with an error:
nothing is read outside of the buffer. -/
theorem C55_refused (a : Nd) (v : Val) (items : List NdItem) (shape : List Nat) (hne : a.shape ≠ [])
    (hl : a.strides.length = a.shape.length) (hv : a.toVal = ok v) (hok : ∀ it ∈ items, NdItemOk shape it)
    (hfit : fitsShape a.shape (expandEllipsis a.shape.length items) = false) :
    (a.getitem items).IsErr := by
  rcases Nd.getitem_ok hne hl hv hok with ⟨h, _⟩ | ⟨_, h⟩
  · rw [hfit] at h; cases h
  · exact h

/-! ### The hypotheses are satisfiable, and what goes wrong without them -/

/-- Numbers of one byte. -/
def byteNd (ptr : List UInt8) (shape : List Nat) (strides : List Int) (byteoffset : Int) : Nd :=
  { params := {}, ptr := ptr, shape := shape, strides := strides, byteoffset := byteoffset, itemsize := 1,
    dtype := .uint8, decode := fun bs => .int (bs.headD 0).toNat }

/-- The transpose of a matrix with its rows reversed. -/
def exampleNd : Nd := byteNd [9, 1, 2, 3, 4, 5, 6] [3, 2] [1, -3] 4

example : exampleNd.shape ≠ [] ∧ exampleNd.strides.length = exampleNd.shape.length ∧
    exampleNd.iscontiguous = false ∧ (∀ d ∈ exampleNd.shape.drop 2, d ≠ 0) ∧
    exampleNd.toVal = ok (.list [.list [.atom (.int 4), .atom (.int 1)],
      .list [.atom (.int 5), .atom (.int 2)], .list [.atom (.int 6), .atom (.int 3)]]) := by
  refine ⟨by decide, by decide, by decide, by decide, by rfl⟩

/-- `a[::-2, ..., newaxis, 1]` and `a[[2, -3], ..., [0, 1]]`. -/
example : (∀ it ∈ [NdItem.item (.range none none (-2)), .ellipsis, .item .newaxis, .item (.at 1)], NdItemOk [] it) ∧
    fitsShape exampleNd.shape (expandEllipsis 2 [.item (.range none none (-2)), .ellipsis, .item .newaxis, .item (.at 1)]) = true ∧
    (∀ it ∈ [NdItem.item (.array [2] [2, -3]), .ellipsis, .item (.array [2] [0, 1])], NdItemOk [2] it) ∧
    fitsShape exampleNd.shape (expandEllipsis 2 [.item (.array [2] [2, -3]), .ellipsis, .item (.array [2] [0, 1])]) = true ∧
    select (expandEllipsis 2 [.item (.array [2] [2, -3]), .ellipsis, .item (.array [2] [0, 1])]) none
      (.list [.list [.atom (.int 4), .atom (.int 1)], .list [.atom (.int 5), .atom (.int 2)],
        .list [.atom (.int 6), .atom (.int 3)]]) = some (.list [.atom (.int 6), .atom (.int 1)]) := by
  refine ⟨by simp [NdItemOk, GoodArg, kSliceNone], by rfl, by simp [NdItemOk], by rfl, by rfl⟩

example : fitsShape exampleNd.shape (expandEllipsis 2 [.item (.at 1), .item (.at 2)]) = false := by rfl

/-- **C54, violated.** An array of shape `(2, 3, 0)` loses a row when it is turned into lists. -/
theorem C54_toRegular_violated : ∃ (a : Nd) (c : Content), a.strides.length = a.shape.length ∧
    a.toVal = ok (.list [.list [.list [], .list [], .list []], .list [.list [], .list [], .list []]]) ∧
    a.toRegularArray = ok c ∧ c.toList = ok [.list [.list [], .list [], .list []]] :=
  ⟨byteNd [] [2, 3, 0] [0, 0, 1] 0, .regular {} (.regular {} (.numpy {} .uint8 []) 0 3) 3 2,
    rfl, rfl, by rfl, by rfl⟩

/-- **C53, violated.** `numbers_to_type` of a two-dimensional NumPy array converts as many items as
the array has rows: the others are read from outside of the new buffer. -/
theorem C53_matrix_violated : ∃ (a b : Nd), a.toVal = ok (.list [.list [.atom (.int 1), .atom (.int 2)],
      .list [.atom (.int 3), .atom (.int 4)]]) ∧
    a.numbersToType 1 .int8 (fun bs => .int (bs.headD 0).toInt8.toInt)
      (fun | .int i => [UInt8.ofInt i] | _ => [0]) = ok b ∧ b.toVal = ub :=
  ⟨byteNd [1, 2, 3, 4] [2, 2] [2, 1] 0, _, by rfl, by rfl, by rfl⟩

end Props
end Awk
