import Verif.Model.Evolution
/-!
# Several Universe objects in one Python process

`Universe.data` (evolution.py 36–46) is a class attribute that no method rebinds on the instance, so all
instances append to, and read from, one table.
-/
namespace PyBBN

/-- A process: universes numbered by creation order and the single class-level table. -/
structure Process (W : Type*) where
  us : ℕ → Uni W
  data : List Row

/-- Calls made on universe `i`. -/
inductive UOp
  | step (i : ℕ)
  | save (i : ℕ)

/-- The universe a call is made on. -/
def UOp.owner : UOp → ℕ
  | .step i => i
  | .save i => i

variable {W : Type*}

/-- `universes[i].make_step()` (evolution.py 181–197) or `universes[i].save_params()` (305–316), both
using the shared table. -/
noncomputable def Process.apply (ph : ℕ → Physics W) (c : Consts) (ab : Bool) (P : Process W) :
    UOp → Except Err (Process W)
  | .step i => match makeStep (ph i) c ab P.data (P.us i) with
    | .error e => .error e
    | .ok u => .ok { P with us := Function.update P.us i u }
  | .save i => match saveParams P.data (P.us i) with
    | .error e => .error e
    | .ok d => .ok { P with data := d }

/-- A sequence of calls; the first exception ends it. -/
noncomputable def Process.run (ph : ℕ → Physics W) (c : Consts) (ab : Bool) (P : Process W) :
    List UOp → Except Err (Process W)
  | [] => .ok P
  | o :: os => match P.apply ph c ab o with
    | .error e => .error e
    | .ok P' => Process.run ph c ab P' os

end PyBBN
