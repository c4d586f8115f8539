import Verif.Model.Rzcobs
import Verif.Model.Stream
import Verif.Spec.Rzcobs
import Verif.Spec.Stream
import Verif.Lemmas.Rzcobs
import Verif.Lemmas.Stream
import Verif.Props.Framing
import Verif.Props.Parser
import Verif.Props.Decoder
import Verif.Props.RoundTrip
import Verif.Props.Display
import Verif.Props.DisplaySafe
import Verif.Props.Message
import Verif.Props.Printer
import Verif.Props.Rtt
import Verif.Props.Attach
import Verif.Props.Logger
import Verif.Props.EnvFilter
import Verif.Props.Elf
import Verif.Props.ElfExact
import Verif.Props.LogOutput
import Verif.Props.BufferSize
import Verif.Props.Qemu
import Verif.Props.AssertEq
import Verif.Props.LogParser
import Verif.Props.LogField
import Verif.Props.Derive
import Verif.Props.DeriveGenerics
import Verif.Props.Grammar
import Verif.Props.GrammarAll
import Verif.Props.Macros
import Verif.Props.System
import Verif.Props.HostLog
import Verif.Props.HostPayload
import Verif.Props.Impls
import Verif.Props.ImplsAscii
import Verif.Model.Dwarf
import Verif.Spec.Dwarf
import Verif.Lemmas.Dwarf
import Verif.Props.Dwarf
import Verif.Model.Harness
import Verif.Spec.Harness
import Verif.Lemmas.Harness
import Verif.Props.Harness
import Verif.Model.Program
import Verif.Spec.Program
import Verif.Lemmas.Program
import Verif.Props.Program
import Verif.Props.PanicExact
import Verif.Model.Linker
import Verif.Spec.Linker
import Verif.Lemmas.Linker
import Verif.Props.Linker
import Verif.Spec.Amplify
import Verif.Props.Amplify
import Verif.Spec.ParserPanic
import Verif.Lemmas.ParserPanic
import Verif.Props.ParserPanic
import Verif.Model.Run
import Verif.Spec.Run
import Verif.Lemmas.Run
import Verif.Props.Run
import Verif.Spec.Whole
import Verif.Props.Whole
import Verif.Model.JsonString
import Verif.Spec.Json
import Verif.Spec.Symbol
import Verif.Lemmas.JsonGrammar
import Verif.Props.Json
import Verif.Model.Weak
import Verif.Spec.Weak
import Verif.Lemmas.Weak
import Verif.Lemmas.WeakLive
import Verif.Props.Weak
import Verif.Model.Resolve
import Verif.Spec.Resolve
import Verif.Lemmas.Resolve
import Verif.Props.Resolve
import Verif.Spec.Sendable
import Verif.Lemmas.Sendable
import Verif.Props.Sendable
import Verif.Model.Hygiene
import Verif.Spec.Hygiene
import Verif.Lemmas.Hygiene
import Verif.Props.Hygiene
import Verif.Spec.LogExact
import Verif.Lemmas.LogExact
import Verif.Props.LogExact
import Verif.Props.MacroArgs
import Verif.Props.WireSize
import Verif.Props.TypeCheck
import Verif.Props.Clock
import Verif.Props.Attributes
import Verif.Props.BitflagsInput
import Verif.Props.Colours
import Verif.Props.LastWords
import Verif.Props.LastWordsRaw
import Verif.Props.Spill
import Verif.Props.Splice
