import Verif.Model.Buffer
import Verif.Model.Common
import Verif.Model.Erroring
import Verif.Model.Go
import Verif.Model.Modifier
import Verif.Model.Nav
import Verif.Model.Parser.Attr
import Verif.Model.Parser.Decl
import Verif.Model.Parser.Parse
import Verif.Model.Parser.Process
import Verif.Model.Parser.State
import Verif.Model.Parser.Threads
import Verif.Model.Reader
import Verif.Model.XmlChar
import Verif.Proofs.Basic
import Verif.Proofs.Buffer
import Verif.Proofs.Elems
import Verif.Proofs.Nav
import Verif.Proofs.Parser.Accept
import Verif.Proofs.Parser.Append
import Verif.Proofs.Parser.At
import Verif.Proofs.Parser.AttrWp
import Verif.Proofs.Parser.Attrs
import Verif.Proofs.Parser.Base
import Verif.Proofs.Parser.Blank
import Verif.Proofs.Parser.Bodies
import Verif.Proofs.Parser.Body
import Verif.Proofs.Parser.Caches
import Verif.Proofs.Parser.Calls
import Verif.Proofs.Parser.DeclSteps
import Verif.Proofs.Parser.DeclWp
import Verif.Proofs.Parser.DocStart
import Verif.Proofs.Parser.Elements
import Verif.Proofs.Parser.Ends
import Verif.Proofs.Parser.EventAttr
import Verif.Proofs.Parser.EventLoop
import Verif.Proofs.Parser.EventNs
import Verif.Proofs.Parser.EventStart
import Verif.Proofs.Parser.EventTags
import Verif.Proofs.Parser.Events
import Verif.Proofs.Parser.Extend
import Verif.Proofs.Parser.Fits
import Verif.Proofs.Parser.Frame
import Verif.Proofs.Parser.Goal
import Verif.Proofs.Parser.Grow
import Verif.Proofs.Parser.Items
import Verif.Proofs.Parser.Line
import Verif.Proofs.Parser.Longer
import Verif.Proofs.Parser.LongerParse
import Verif.Proofs.Parser.Markup
import Verif.Proofs.Parser.Nested
import Verif.Proofs.Parser.NsBits
import Verif.Proofs.Parser.NsInv
import Verif.Proofs.Parser.NsList
import Verif.Proofs.Parser.NsName
import Verif.Proofs.Parser.NsOnly
import Verif.Proofs.Parser.NsParse
import Verif.Proofs.Parser.NsPost
import Verif.Proofs.Parser.NsStep
import Verif.Proofs.Parser.NsTag
import Verif.Proofs.Parser.NsTotal
import Verif.Proofs.Parser.NsVal
import Verif.Proofs.Parser.Order
import Verif.Proofs.Parser.Ordinary
import Verif.Proofs.Parser.OrdinaryPlain
import Verif.Proofs.Parser.ParseAccept
import Verif.Proofs.Parser.Plain
import Verif.Proofs.Parser.PlainAttr
import Verif.Proofs.Parser.PlainLoop
import Verif.Proofs.Parser.PlainParse
import Verif.Proofs.Parser.PlainTag
import Verif.Proofs.Parser.PlainVal
import Verif.Proofs.Parser.Procs
import Verif.Proofs.Parser.Quiet
import Verif.Proofs.Parser.Recs
import Verif.Proofs.Parser.Regular
import Verif.Proofs.Parser.Resp
import Verif.Proofs.Parser.Rooted
import Verif.Proofs.Parser.RootedAttr
import Verif.Proofs.Parser.RootedLoop
import Verif.Proofs.Parser.RootedParse
import Verif.Proofs.Parser.RootedTag
import Verif.Proofs.Parser.RootedVal
import Verif.Proofs.Parser.Scoped
import Verif.Proofs.Parser.ScopedAttr
import Verif.Proofs.Parser.ScopedLoop
import Verif.Proofs.Parser.ScopedParse
import Verif.Proofs.Parser.ScopedSeen
import Verif.Proofs.Parser.ScopedTag
import Verif.Proofs.Parser.ScopedVal
import Verif.Proofs.Parser.Shape
import Verif.Proofs.Parser.Standing
import Verif.Proofs.Parser.Steps
import Verif.Proofs.Parser.Stored
import Verif.Proofs.Parser.Tags
import Verif.Proofs.Parser.Tree
import Verif.Proofs.Parser.TreeDec
import Verif.Proofs.Parser.Two
import Verif.Proofs.Parser.TwoLoop
import Verif.Proofs.Parser.Unambiguous
import Verif.Proofs.Parser.Untree
import Verif.Proofs.Parser.Window
import Verif.Proofs.Parser.WindowParse
import Verif.Proofs.Parser.Wp
import Verif.Proofs.Parser.Writes
import Verif.Proofs.Parser.WritesDecl
import Verif.Proofs.Parser.WritesDoc
import Verif.Proofs.Parser.WritesLoop
import Verif.Proofs.Parser.WritesProc
import Verif.Proofs.Parser.WritesStep
import Verif.Proofs.Parser.WritesTag
import Verif.Proofs.Reach
import Verif.Proofs.Sat
import Verif.Proofs.Strings
import Verif.Proofs.Token
import Verif.Proofs.Total
import Verif.Proofs.Walk
import Verif.Proofs.XmlChar
import Verif.Props.Aware
import Verif.Props.Buffer
import Verif.Props.Buffer2
import Verif.Props.Caches
import Verif.Props.Common
import Verif.Props.Construct
import Verif.Props.Cut
import Verif.Props.Diverge
import Verif.Props.Final
import Verif.Props.Grammar
import Verif.Props.Instr
import Verif.Props.Items
import Verif.Props.LcDepth
import Verif.Props.Limits
import Verif.Props.Many
import Verif.Props.Name
import Verif.Props.Namespaces
import Verif.Props.Nav
import Verif.Props.NavCache
import Verif.Props.NavFail
import Verif.Props.NavFurther
import Verif.Props.NavMoves
import Verif.Props.NavString
import Verif.Props.Neutral
import Verif.Props.NsOnly
import Verif.Props.Options
import Verif.Props.Order
import Verif.Props.Ordinary
import Verif.Props.Pages
import Verif.Props.Pieces
import Verif.Props.Plain
import Verif.Props.Prefixes
import Verif.Props.Reach
import Verif.Props.ReachTree
import Verif.Props.Reader
import Verif.Props.Refuted
import Verif.Props.Reuse
import Verif.Props.RootDeclared
import Verif.Props.Rooted
import Verif.Props.Scoped
import Verif.Props.Shape
import Verif.Props.Split
import Verif.Props.Standing
import Verif.Props.Stored
import Verif.Props.Strings
import Verif.Props.Tags
import Verif.Props.Threads
import Verif.Props.Token
import Verif.Props.Total
import Verif.Props.Tree
import Verif.Props.TreePrefixes
import Verif.Props.VisibleDeclared
import Verif.Props.WellFormed
import Verif.Props.Window
import Verif.Props.Written
import Verif.Spec.Buffer
import Verif.Spec.Caches
import Verif.Spec.Elems
import Verif.Spec.Fits
import Verif.Spec.Grammar
import Verif.Spec.Instr
import Verif.Spec.Items
import Verif.Spec.LcDepth
import Verif.Spec.Lines
import Verif.Spec.Links
import Verif.Spec.Markup
import Verif.Spec.Nav
import Verif.Spec.NavString
import Verif.Spec.Nested
import Verif.Spec.NsOnly
import Verif.Spec.Order
import Verif.Spec.Ordinary
import Verif.Spec.Outcome
import Verif.Spec.Parse
import Verif.Spec.Parsed
import Verif.Spec.Plain
import Verif.Spec.Prefixes
import Verif.Spec.Reach
import Verif.Spec.Reader
import Verif.Spec.Refs
import Verif.Spec.RootDeclared
import Verif.Spec.Rooted
import Verif.Spec.Scoped
import Verif.Spec.Stored
import Verif.Spec.Strings
import Verif.Spec.Tags
import Verif.Spec.Trace
import Verif.Spec.Tree
import Verif.Spec.VisibleDeclared
import Verif.Spec.Window
import Verif.Spec.Xml
import Verif.Tests.Repo
