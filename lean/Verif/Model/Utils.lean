import Verif.Model.Py
import Mathlib.Order.Defs.LinearOrder
import Mathlib.Algebra.Order.Group.Defs
/-!
# Small utilities: `ring_deque`, `Throttler` (common/utils.py 30–73)
-/
namespace PyBBN

/-- `ring_deque` instance.  `first` is true until the first `append`, which replaces the method on
the instance (utils.py 71). Class attributes `max = min = 0` are `mx`, `mn`. -/
structure RingDeque (α : Type*) where
  items : List α
  length : ℕ
  first : Bool
  mx : α
  mn : α

namespace RingDeque
variable {α : Type*} [LinearOrder α]

/-- `__init__` (utils.py 54–56); `zero` is the class attribute value `0`. -/
def new (zero : α) (data : List α) (length : ℕ) : RingDeque α := ⟨data, length, true, zero, zero⟩

/-- `append_more` (utils.py 58–65). -/
def appendMore (s : RingDeque α) (x : α) : RingDeque α :=
  let items := if s.items.length > s.length then s.items.tail else s.items
  { s with items := items ++ [x], mx := max x s.mx, mn := min x s.mn }

/-- `append` (utils.py 67–73), including the self-replacement by `append_more`. -/
def append (s : RingDeque α) (x : α) : RingDeque α :=
  if s.first then { s with items := s.items ++ [x], mx := x, mn := x, first := false }
  else s.appendMore x

/-- A sequence of appends. -/
def appends (s : RingDeque α) (xs : List α) : RingDeque α := xs.foldl append s

end RingDeque

/-- `Throttler` instance (utils.py 30–34). -/
structure Throttler (α : Type*) where
  clock : α
  rate : α
  output : Bool

namespace Throttler
variable {α : Type*} [Sub α] [LT α] [DecidableLT α]

/-- `__init__` with the clock reading `now` (utils.py 31–34). -/
def new (now rate : α) : Throttler α := ⟨now, rate, true⟩

/-- `update` with the clock reading `now` (utils.py 36–45). -/
def update (s : Throttler α) (now : α) : Throttler α × Bool :=
  if now - s.clock < s.rate then ({ s with output := false }, false)
  else ({ s with clock := now, output := true }, true)

/-- Successive updates at the given clock readings; the log pairs each reading with the returned
value and the value of `output` seen afterwards. -/
def run (s : Throttler α) : List α → List (α × Bool × Bool)
  | [] => []
  | t :: ts => let r := s.update t; (t, r.2, r.1.output) :: run r.1 ts

end Throttler
end PyBBN
