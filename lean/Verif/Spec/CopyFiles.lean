import Verif.Model.CopyFiles
import Verif.Model.MpiBlock
import Verif.Spec.Copy
import Verif.Spec.Conc
import Verif.Spec.CopyMpi
/-!
# What parallel copying must do to the files
-/

set_option autoImplicit false

namespace Verif.Spec

open Verif

/-- The steps of the queue. -/
def queueEvents (es : List FilesEvent) : List CopyEvent :=
  es.filterMap fun e => match e with | .queue e => some e | .file _ => none

/-- No process can go on. -/
def FilesStuck (job : Nat → Nat → Worker → Prog Worker) (F : Nat → Nat → Fault) (n size : Nat) (s : FilesConf) : Prop :=
  ∀ e s', ¬ FilesStep job F n size s e s'

end Verif.Spec
