import Verif.Spec.Window
import Verif.Spec.Xml

/-!
# Documents whose namespace names cannot mislead the parser

Without a definition of the model: only the bytes of the document.
-/

namespace GoVtd

/-- No attribute value begins with `&a`, and neither `&ap;` nor `&aos;` occurs. A well-formed document never
contains the last two; it contains the first only if a value begins with `&amp;` or `&apos;` or another entity
whose name begins with `a`. -/
structure NoEntityStart (doc : List UInt8) : Prop where
  double : ¬ bytes "\"&a" <:+: doc
  single : ¬ bytes "'&a" <:+: doc
  ap : ¬ bytes "&ap;" <:+: doc
  aos : ¬ bytes "&aos;" <:+: doc

end GoVtd
