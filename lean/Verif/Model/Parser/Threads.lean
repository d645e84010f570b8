import Verif.Model.Parser.Parse

/-!
# Parsers in several goroutines

The library starts no goroutine and takes no lock. This is the model of a program that creates some
parsers and calls `Parse` on each of them in a goroutine of its own. The goroutines share two things:
the bytes of the documents, which no function of the library writes (so that every parser of the model
holds a copy), and the exported variable `erroring.EOFErrorType`
(`vtdxml/erroring/erroring.go:21`), which `Parse` overwrites through `errors.As`
(`vtdxml/parser/parse.go:70`).

Simplified: a turn of a goroutine is one iteration of the loop of `Parse`, or what comes before the
loop. A finer division of the turns would not be observable: between two accesses to the shared
variable a goroutine touches only its own parser. Not modelled: the two `fmt.Printf` calls
(`vtdxml/parser/parse.go:27-29`), whose lines are interleaved on the standard output.
-/

namespace GoVtd

/-- The node of an error at which `errors.As(err, &T)` stops, which it stores in `T`; see
`GoErr.as`. Used in `vtdxml/parser/parse.go:70`. -/
def GoErr.find (t : ErrType) : GoErr → Option GoErr
  | .leaf k => if k.type = t then some (.leaf k) else none
  | .wrap k e => if k.type = t then some (.wrap k e) else e.find t

/-- A goroutine that runs `Parse`, `vtdxml/parser/parse.go:14-81`: not begun, at the head of the loop
(line 26) with the parser and `parserState`, or returned. -/
inductive Thread where
  | fresh (p : Parser)
  | loop (p : Parser) (st : PState)
  | done (r : Res Parser Unit)

/-- `decideEncoding` and the record of the document, `vtdxml/parser/parse.go:15-20`. -/
def Parser.parseHead : M Parser Unit := do
  decideEncoding
  let p ← M.get
  writeVtd .document 0 0 p.depth

/-- One turn of a goroutine: the new goroutine and the new value of the shared variable `cell`.
A call that does not return leaves the goroutine where it is. -/
def Thread.step (cell : GoErr) : Thread → Thread × GoErr
  | .fresh p =>
    match Parser.parseHead p with
    | .ok _ p' => (.loop p' .docStart, cell)
    | .err e p' => (.done (.err e p'), cell)
    | .panic => (.done .panic, cell)
    | .diverge => (.fresh p, cell)
  | .loop p st =>
    match Parser.step st p with
    | .ok st' p' => (.loop p' st', cell)
    | .err e p' =>
      match Parser.onStepErr st e p' with
      | .ok _ p'' => (.done (.ok () p''), (e.find .eof).getD cell)
      | .err e' p'' => (.done (.err e' p''), (e.find .eof).getD cell)
      | .panic => (.done .panic, (e.find .eof).getD cell)
      | .diverge => (.loop p st, cell)
    | .panic => (.done .panic, cell)
    | .diverge => (.loop p st, cell)
  | .done r => (.done r, cell)

/-- The program: the variable `erroring.EOFErrorType` and the goroutines. -/
structure World where
  cell : GoErr
  threads : List Thread

/-- The start of the program: `var EOFErrorType = &EOFError{}`,
`vtdxml/erroring/erroring.go:21`, and goroutines that have not begun. -/
def World.start (ps : List Parser) : World := ⟨.leaf (.eof ""), ps.map .fresh⟩

/-- The scheduler gives goroutine `i` one turn. -/
def World.turn (w : World) (i : Nat) : World :=
  match w.threads[i]? with
  | none => w
  | some t => ⟨(t.step w.cell).2, w.threads.set i (t.step w.cell).1⟩

/-- A schedule: the goroutines in the order of their turns. -/
def World.run (w : World) (sched : List Nat) : World := sched.foldl World.turn w

end GoVtd
