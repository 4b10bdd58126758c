import Verif.Spec.Report
import Verif.Model.Streams
/-
C118: what may be on standard output. The conditions speak about the Babfile only.
-/

namespace Bab.Spec

/-- there is no `log` item in a parallel block or in a task that may run in one -/
def NoLogInBlocks (tasks : TaskMap) : Prop :=
  (∀ n T l, InBlocks tasks n → tasks.get? n = some T → .log l ∉ T.run) ∧
  ∀ n T items labels mode lim color bs bo pl w ln l, tasks.get? n = some T →
    .parallel items labels mode lim color bs bo pl w ln ∈ T.run → .log l ∉ items

/-- no block asks for a view -/
def NoViews (tasks : TaskMap) : Prop :=
  ∀ n T items labels mode lim color bs bo pl w ln, tasks.get? n = some T →
    .parallel items labels mode lim color bs bo pl w ln ∈ T.run → mode = .interleaved

end Bab.Spec
