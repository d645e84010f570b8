import Verif.Spec.Parsed

/-!
# The bytes of a token
-/

namespace GoVtd

/-- Where the bytes of a token end: its offset and its length. Of a start tag only the first byte of the name is
counted, as the length that is recorded for a name with a prefix is wrong (C35). -/
def tokenEnd (w : BitVec 64) : Nat :=
  tokenOffset w + if IsStart w then 1 else if IsAttr w then qnameLength w else tokenLength w

/-- The name of a processing instruction and its data, which is empty: there is none. -/
def NoData (v w : BitVec 64) : Prop :=
  tokenType v = Token.piName.code ∧ tokenType w = Token.piVal.code ∧ tokenLength w = 0

instance (v w : BitVec 64) : Decidable (NoData v w) := inferInstanceAs (Decidable (_ ∧ _ ∧ _))

end GoVtd
