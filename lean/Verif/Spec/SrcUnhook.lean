import Verif.Spec.SrcStory

/-! # The log of a program with hooks, without the hooks -/

namespace Mu.CS.Story

/-- The same log, if a task counts as called from when the call hook is called with it (`hook`: there is a call hook), and without
the calls of the transfer hook. -/
def unhook (hook : Bool) (L : List Seen) : List Seen :=
  L.filterMap fun e => match e with
    | .hooked t => some (.called t)
    | .called t => if hook then none else some (.called t)
    | .transferring _ => none
    | e => some e

end Mu.CS.Story
