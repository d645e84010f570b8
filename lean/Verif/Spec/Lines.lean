import Verif.Model.Erroring

/-!
# Line and column of an offset
-/

namespace GoVtd

/-- Number of line feeds among the bytes `doc[start:o]`. -/
def newlines (doc : List UInt8) (start o : Nat) : Nat :=
  ((doc.take o).drop start).count 0x0A

/-- Position of the last line feed in `doc[start:o]`, or 0 when there is none. -/
def lastNewline (doc : List UInt8) (start o : Nat) : Nat :=
  ((List.range o).filter fun k => decide (start ≤ k) && doc[k]? == some 0x0A).getLast?.getD 0

/-- Every `ParseError` in the chain that carries a line text says line `l` and offset `k`. -/
def GoErr.LineIs (l k : Int) : GoErr → Prop
  | .leaf (.parse _ (some lk)) => lk = (l, k)
  | .leaf _ => True
  | .wrap (.parse _ (some lk)) e => lk = (l, k) ∧ e.LineIs l k
  | .wrap _ e => e.LineIs l k

end GoVtd
