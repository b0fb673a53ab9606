import Verif.Model.Py
/-!
# History tables: `Dynamic2DArray` and `DynamicRecArray` (common/utils.py 169–302)

Both classes have the same buffer management; one model serves both.  A row is an arbitrary type
`α` with a distinguished all-zero row.  `length` is an integer because the code decrements it
without a check.  Row formatting and `savetxt` are not modelled.
-/
namespace PyBBN

/-- Buffer object.  `length`, `size`, `_data` of utils.py 173–175 / 231–233. -/
structure DynArr (α : Type*) where
  length : ℤ
  size : ℕ
  buf : List α

namespace DynArr
variable {α : Type*}

/-- `__init__` (utils.py 173–175 and 231–233): length 0, size 10, buffer of ten zero rows. -/
def empty (zero : α) : DynArr α := ⟨0, 10, List.replicate 10 zero⟩

/-- `append` (utils.py 194–199 and 255–263).  `int(1.5*size)` is `⌊3·size/2⌋` (exact in binary
floating point for the sizes at hand); `numpy.resize` tiles. -/
def append (zero : α) (s : DynArr α) (row : α) : Except Err (DynArr α) :=
  let s' : DynArr α :=
    if s.length = s.size ∨ s.length = (s.buf.length : ℤ) - 2 then
      { s with size := 3 * s.size / 2, buf := npResize zero s.buf (3 * s.size / 2) }
    else s
  match pySet s'.buf s'.length row with
  | .error e => .error e
  | .ok b => .ok { s' with buf := b, length := s'.length + 1 }

/-- `extend` (utils.py 201–203 and 265–267). -/
def extend (zero : α) (s : DynArr α) (rows : List α) : Except Err (DynArr α) :=
  rows.foldlM (fun s r => s.append zero r) s

/-- `truncate` (utils.py 209–211 and 288–290). -/
def truncate (s : DynArr α) : Except Err (DynArr α) :=
  match npDelete s.buf (s.length + 1) with
  | .error e => .error e
  | .ok b => .ok { s with buf := b, length := s.length - 1 }

/-- `data` property (utils.py 205–207 and 269–271), also `Dynamic2DArray.__getitem__` before the
final indexing (181). -/
def data (s : DynArr α) : List α := pySliceTo s.buf s.length

/-- `__len__` (utils.py 177–178, 235–236). -/
def len (s : DynArr α) : ℤ := s.length

/-- `DynamicRecArray.__getitem__` with a column name (utils.py 248–249): the column of the visible
part; `col` projects a row on the column. -/
def column {β : Type*} (s : DynArr α) (col : α → β) : List β :=
  pySliceTo (s.buf.map col) s.length

/-- `DynamicRecArray.__getitem__` with an integer (utils.py 250–253). -/
def getInt (s : DynArr α) (index : ℤ) : Except Err α :=
  let i := if index < 0 then s.length + 1 - index else index
  pyGet s.buf i

/-- `Dynamic2DArray.__getitem__` with an integer (utils.py 180–181). -/
def get2D (s : DynArr α) (index : ℤ) : Except Err α := pyGet s.data index

/-- `append` of a dictionary (utils.py 256–257): a tuple is built from the listed columns; a missing
column raises `KeyError` before the table is touched.  `mk` turns the tuple into a row. -/
def appendDict {κ β : Type*} (zero : α) (cols : List κ) (mk : List β → α)
    (s : DynArr α) (d : κ → Option β) : Except Err (DynArr α) :=
  match cols.mapM d with
  | none => .error .keyError
  | some vs => s.append zero (mk vs)

/-- The operations a client can perform on a table. -/
inductive Op (α : Type*)
  | append (row : α)
  | extend (rows : List α)
  | truncate

/-- Execute one operation. -/
def step (zero : α) (s : DynArr α) : Op α → Except Err (DynArr α)
  | .append r => s.append zero r
  | .extend rs => s.extend zero rs
  | .truncate => s.truncate

/-- Execute a sequence of operations. -/
def run (zero : α) (s : DynArr α) (ops : List (Op α)) : Except Err (DynArr α) :=
  ops.foldlM (fun s o => s.step zero o) s

end DynArr
end PyBBN
