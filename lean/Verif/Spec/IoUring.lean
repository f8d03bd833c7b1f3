import Verif.Model.IoUring

/-! What the properties of C104 speak about. -/
namespace Verif.Spec.IoUring

open Verif.Model.IoUring

/-- The requests made. -/
def asked : List Op → List Nat
  | [] => []
  | .ask r :: ops => r :: asked ops
  | _ :: ops => asked ops

/-- A system call and the release of its entries are one step: no two processors are in it. -/
def Whole : Op → Prop
  | .enter _ => False
  | .relRead _ => False
  | .relWrite _ => False
  | _ => True

/-- No system call for completions that are kept back is refused. -/
def Served : Op → Prop
  | .drainMore .busy => False
  | _ => True

/-- Listed for the kernel and not consumed by it. -/
def listed (s : Sys) : List Nat := s.handed.drop s.accepted.length

/-- How many entries are in use. -/
def inUse (s : Sys) : Nat := s.got.length + s.ready.length + s.ext.length + (listed s).length

end Verif.Spec.IoUring
