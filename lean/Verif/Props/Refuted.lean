import Verif.Props.Total

/-!
# Properties C37, C40, C41 and C51: counterexamples

Each theorem evaluates the model on one document. A counterexample is a proof that the property, which
speaks of every document, is false of the code.
-/

namespace GoVtd
open Parser

/-- A parse of an ASCII document with the default options. -/
def parseStr (s : String) : Outcome Unit := parseDoc (bytes s)

/-- C37 is false: documents that declare US-ASCII, ASCII, ISO-8859-1 or windows-1252 are refused although the
library lists these encodings. -/
theorem C37_refuted :
    (parseStr "<?xml version='1.0' encoding='US-ASCII'?><a/>").isError ∧
    (parseStr "<?xml version='1.0' encoding='ASCII'?><a/>").isError ∧
    (parseStr "<?xml version='1.0' encoding='ISO-8859-1'?><a/>").isError ∧
    (parseStr "<?xml version='1.0' encoding='windows-1252'?><a/>").isError ∧
    (parseStr "<?xml version='1.0' encoding='cp1252'?><a/>").isError := by
  decide +kernel

/-- C37 holds of UTF-8. -/
example : parseStr "<?xml version='1.0' encoding='UTF-8'?><a/>" = .value () ∧
    parseStr "<?xml version='1.0' encoding='utf-8'?><a/>" = .value () := by
  decide +kernel

/-- C40 is false: a comment after the root element is refused, and so is a processing instruction without data. -/
theorem C40_refuted :
    parseStr "<a/><!--c-->" =
      .error (newParseError "invalid terminating sequence, --> expected" (some (1, 12)) none) ∧
    parseStr "<a/><?b?>" = .error (newParseError "invalid termination sequence" (some (1, 10)) none) := by
  decide +kernel

/-- A processing instruction with data after the root element is accepted. -/
example : parseStr "<a/><?b c?>" = .value () := by decide +kernel

/-- C41 is false: a document type declaration is refused, and a misspelt one is accepted inside the root element. -/
theorem C41_refuted :
    parseStr "<!DOCTYPE a><a/>" =
      .error (newParseError "invalid char sequence in DOCTYPE" (some (1, 5)) none) ∧
    parseStr "<a><!DDOCTYPE a><b/></a>" = .value () := by
  decide +kernel

/-- C51 is false: the bytes after the window decide whether the window `<a/><?b ?` is accepted, refused or
makes `Parse` panic. -/
theorem C51_refuted :
    parseWith 100 [.xmlDocCustomOffset (some (bytes "<a/><?b ?>")) 0 9] = .value () ∧
    (parseWith 100 [.xmlDocCustomOffset (some (bytes "<a/><?b ?x")) 0 9]).isError ∧
    parseWith 100 [.xmlDocCustomOffset (some (bytes "<a/><?b ?")) 0 9] = .panic := by
  decide +kernel

end GoVtd
