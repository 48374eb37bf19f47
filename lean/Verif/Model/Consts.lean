/-!
# Model of `clamp` of `src/consts.rs`
-/

namespace Verif

/-- `clamp`, `/repo/src/consts.rs` lines 44-55, for a type with a decidable `<`. -/
def clamp {α : Type} [LT α] [DecidableLT α] (val min max : α) : α :=
  if val < min then min else if val > max then max else val

end Verif
