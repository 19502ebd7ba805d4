import Verif.Value.Props
import Verif.Value.Logic
import Verif.Arith.Props
import Verif.Arith.BitProps
import Verif.Arith.GcdProps
import Verif.Arith.IterProps
import Verif.IdTable.Props
import Verif.Arr.Props
import Verif.Arr.Props2
import Verif.Hash.KeyProps
import Verif.Hash.MapProps
import Verif.Hash.Link
import Verif.Sort.Props
import Verif.Heap.Props
import Verif.Heap.Kinds
import Verif.ISeq.Props
import Verif.ISeq.PeepholeProps
import Verif.Codegen.Props
import Verif.Codegen.Props2
import Verif.Codegen.Scope
import Verif.Class.Props
import Verif.Class.Super
import Verif.Class.CacheProps
import Verif.Class.ConstProps
import Verif.Args.Props2
import Verif.Frame.WordsProps
import Verif.Frame.Props
import Verif.Range.Props
import Verif.Comparable.Props
import Verif.Source.Props
import Verif.Loader.Props
import Verif.Ivar.Props
import Verif.Literal.Props
import Verif.Stack.Props
import Verif.Str.Props
import Verif.Str.Split
import Verif.Str.TextProps
import Verif.Str.Succ
import Verif.Fiber.Props
import Verif.Fiber.EnumProps
import Verif.Lexer.Props
import Verif.Lexer.Numbers
import Verif.Parser.Props
import Verif.Codegen.TotalProps
import Verif.Pipeline.Props
import Verif.Codegen.ShapeProps
import Verif.Pipeline.Final
import Verif.Meaning.Euclid
import Verif.Meaning.NamedProps
import Verif.Meaning.OpAssign
import Verif.Regexp.Props
import Verif.Complex.Props
import Verif.Eq.Props
import Verif.Methods.Props
import Verif.Methods.Factorial
import Verif.Methods.Text
import Verif.Unwind.Props
import Verif.Unwind.Deep
import Verif.Methods.FactorialText
import Verif.Blocks.Spec
import Verif.Blocks.Model
import Verif.Blocks.Tag
import Verif.Blocks.Steps
import Verif.Blocks.Lemmas
import Verif.Blocks.Frames
import Verif.Blocks.Props
import Verif.Blocks.Exits
import Verif.Blocks.Sum
import Verif.Parser.Names
import Verif.Eq.Floats
import Verif.Codegen.Literals
import Verif.Blocks.Instances
import Verif.Class.Reflect
import Verif.Arr.Mutate
import Verif.Str.Numbers
import Verif.Str.Format
import Verif.Str.Parts
import Verif.Class.Vars
import Verif.Hash.Iterate
import Verif.File.Paths
import Verif.File.Glob
import Verif.Dispatch.Calls
import Verif.Inspect.Data
import Verif.Class.Single
import Verif.Lexer.Percent
import Verif.Class.Rescue
import Verif.Class.Open
import Verif.Arr.Search
import Verif.Dispatch.Send
import Verif.Class.Consts
import Verif.Arr.Bsearch
import Verif.Ivar.Struct
import Verif.Float.Props
import Verif.Float.Rem
import Verif.Kernel.Output
import Verif.Eval.Binding
import Verif.Float.Div
import Verif.Eval.Defined
import Verif.Class.Many
import Verif.Kernel.Time
import Verif.Heap.Temps
import Verif.Parser.Interp
import Verif.Blocks.Leave
import Verif.Copy.Props
import Verif.Regexp.Pattern
import Verif.Kernel.Exit
import Verif.Heap.Control
import Verif.Heap.Address
import Verif.Parser.Newline
import Verif.Lexer.Regexp
import Verif.Lexer.Symbol
import Verif.Arr.Make
import Verif.Regexp.Vars
import Verif.Class.Exn
import Verif.Class.Visible
import Verif.Kernel.Sleep
import Verif.Kernel.Gets
import Verif.Kernel.Freeze
import Verif.Kernel.Repl
import Verif.Kernel.Process
import Verif.Lexer.CharLit
import Verif.File.Contents
