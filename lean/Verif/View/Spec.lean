/-
Specification of the viewer of MuJoCo environments, for C155.
-/
import Verif.View.Model

namespace Verif.View

noncomputable section

variable {D : Type}

/-- A key was released. -/
def Event.isKey (k : Key) : Event → Bool
  | .key k' released => k' = k && released
  | _ => false

/-- How often a key was released. -/
def presses (k : Key) (evs : List Event) : ℕ := evs.countP (Event.isKey k)

/-- The event moves the camera. -/
def Event.isMouse : Event → Bool
  | .move _ _ => true
  | .scroll _ => true
  | _ => false

/-- How often TAB was released during the first `i` frames; without a window there are no events. -/
def tabs (e : Env) (i : ℕ) : ℕ := if e.headless then 0 else ((List.range i).map fun n => presses .tab (e.tape n).events).sum

/-- The modes in the order of the menu. -/
def nth (k : ℕ) : String := if k % 3 = 0 then "static" else if k % 3 = 1 then "follow" else "top_static"

/-- The camera has the values configured for the mode. -/
def Configured (e : Env) (m : String) (c : Camera) : Prop :=
  ∃ ps, e.params.lookup m = some ps ∧ ps.lookup "distance" = some c.distance ∧ ps.lookup "elevation" = some c.elevation ∧ ps.lookup "azimuth" = some c.azimuth ∧
    ∀ l, ps.lookup "lookat" = some l → c.lookat = l

/-- A session: calls of `render` one after the other, each with the data to show and `record`; each may draw at most `fuel` frames per loop. -/
def session (e : Env) (fuel : ℕ) : List (D × Bool) → St D → Option (Except Err (St D))
  | [], s => some (.ok s)
  | (d, r) :: cs, s =>
      match render e d r fuel s with
      | none => none
      | some (.error err) => some (.error err)
      | some (.ok s) => session e fuel cs s

end

end Verif.View
