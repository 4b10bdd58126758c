import Verif.Spec.Parser
/-
C72: what a message about loading should tell.
-/

namespace Bab.Spec

/-- one file includes the other -/
def Next (files : Files) (a b : Str) : Prop := ∃ ns, Includes files a ns b

/-- the includes lead from `p` through the files `trail`, beginning with `p`, to `q` -/
inductive Way (files : Files) : Str → List Str → Str → Prop
  | here (p) : Way files p [] p
  | step {p q r trail} (h : Next files p q) (hr : Way files q trail r) : Way files p (p :: trail) r

/-- what is wrong with the file `q`, reached through the files of the trail -/
inductive LoadFault (files : Files) : List Str → Str → PErr → Prop
  | missing {trail q} (h : files.get? q = none) : LoadFault files trail q (.notFound q)
  | invalid {trail q} (h : files.get? q = some none) : LoadFault files trail q (.invalid q)
  /-- loading went through the file before -/
  | circle {trail q} (h : q ∈ trail) (chain) : LoadFault files trail q (.circular q chain)
  /-- the file that includes `q` has two tasks of the same name, one of them from `q` -/
  | collision {trail f q ns nss bs m g U as' bs' m' g' U'} (hi : Includes files f ns q) (h : Provides files f (ns :: nss) bs m g U)
      (h' : Provides files f as' bs' m' g' U') (hn : fullName (ns :: nss) m = fullName as' m') (hne : ns :: nss ≠ as') :
      LoadFault files (trail ++ [f]) q (.collision q (fullName as' m'))

end Bab.Spec
