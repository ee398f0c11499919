import Verif.Model.Editor
import Verif.Props.Lexical
import Verif.Props.Parser
import Verif.Props.Arithmetic
import Verif.Props.Display
import Verif.Props.Variables
import Verif.Props.Database
import Verif.Props.Capacity
import Verif.Props.Editor
import Verif.Props.Editing
import Verif.Props.Settings
import Verif.Props.Session
import Verif.Props.HashOrder
import Verif.Props.Typing
import Verif.Props.Answer
import Verif.Props.SyntaxErrors
import Verif.Props.Refusal
import Verif.Props.Private
import Verif.Props.Sessions
import Verif.Props.Help
import Verif.Props.Robust
import Verif.Props.Terminal
import Verif.Props.Screen
import Verif.Props.Laws
import Verif.Props.Naming
import Verif.Props.Identities
import Verif.Props.Shown
import Verif.Props.RootDigits
import Verif.Props.Independent
import Verif.Tests.Repo
import Verif.Props.Order
import Verif.Model.Main
import Verif.Props.Streams
import Verif.Props.Again
import Verif.Model.Cli
import Verif.Props.CommandLine
import Verif.Props.RootsBack
import Verif.Props.Speed
import Verif.Props.Together
import Verif.Props.Mentions
import Verif.Props.Size
import Verif.Props.Control
import Verif.Props.Interleave
import Verif.Props.Conversation
import Verif.Props.Repeat
import Verif.Props.Rename
import Verif.Props.Calculator
import Verif.Props.Written
import Verif.Props.Decides
import Verif.Spec.Office
import Verif.Proof.Office
import Verif.Props.Office
import Verif.Spec.Growth
import Verif.Proof.Growth
import Verif.Props.Growth
import Verif.Spec.Program
import Verif.Props.Program
import Verif.Spec.Whole
import Verif.Props.Whole
import Verif.Spec.Console
import Verif.Props.Console
import Verif.Spec.Resize
import Verif.Props.Resize
import Verif.Props.Kept
import Verif.Props.Stays
import Verif.Props.Same
