import Verif.Model.Grammar
import Verif.Spec.Cfg
import Verif.Lemmas.Cfg
import Verif.Props.Vocabulary
import Verif.Lemmas.First
import Verif.Lemmas.Follow
import Verif.Props.FirstFollow
import Verif.Props.Table
import Verif.Model.Parser
import Verif.Spec.Tree
import Verif.Lemmas.Parser
import Verif.Props.Parser
import Verif.Props.Recursion
import Verif.Model.Str
import Verif.Model.Lexer
import Verif.Model.Regex
import Verif.Spec.Lex
import Verif.Spec.RegexLang
import Verif.Lemmas.Str
import Verif.Lemmas.Lexer
import Verif.Lemmas.Regex
import Verif.Lemmas.RegexV1
import Verif.Props.Lexer
import Verif.Props.LexerV1
import Verif.Model.AstAccess
import Verif.Spec.AstFull
import Verif.Props.Ast
import Verif.Props.NodeText
import Verif.Model.Walker
import Verif.Model.Visitor
import Verif.Spec.Traversal
import Verif.Props.Traversal
import Verif.Model.SerdeAst
import Verif.Spec.JsonTree
import Verif.Props.SerdeAst
import Verif.Model.Context
import Verif.Model.GrammarVisitor
import Verif.Spec.Ebnf
import Verif.Lemmas.Elab
import Verif.Lemmas.EbnfSem
import Verif.Lemmas.SymPass
import Verif.Lemmas.ElabInv
import Verif.Props.GrammarVisitor
import Verif.Model.LexerRuleVisitor
import Verif.Spec.LexRules
import Verif.Props.LexerRules
import Verif.Model.Drawer
import Verif.Spec.Js
import Verif.Props.Drawer
import Verif.Props.DrawnExact
import Verif.Model.Shipped
import Verif.Spec.Shipped
import Verif.Props.Shipped
import Verif.Spec.GrammarText
import Verif.Lemmas.GrammarText
import Verif.Props.GrammarText
import Verif.Spec.Accessors
import Verif.Props.Accessors
import Verif.Props.Pipeline
import Verif.Props.ParserErrors
import Verif.Props.ParserDepth
import Verif.Spec.Spacing
import Verif.Props.Spacing
import Verif.Model.RegexSyntax
import Verif.Props.RegexSyntax
import Verif.Props.RegexRules
import Verif.Spec.Comments
import Verif.Props.Comments
import Verif.Model.Template
import Verif.Model.Source
import Verif.Spec.RustText
import Verif.Props.Template
import Verif.Model.Page
import Verif.Spec.Html
import Verif.Props.Page
import Verif.Props.WholeInput
import Verif.Model.Main
import Verif.Spec.Main
import Verif.Props.Main
import Verif.Model.Display
import Verif.Spec.Display
import Verif.Props.Display
import Verif.Spec.Artefacts
import Verif.Props.Artefacts
import Verif.Model.ParserCost
import Verif.Props.ParserCost
import Verif.Props.Rounds
import Verif.Model.JsonText
import Verif.Spec.JsonText
import Verif.Spec.ShippedText
import Verif.Lemmas.JsonText
import Verif.Lemmas.JsonWrite
import Verif.Props.JsonText
import Verif.Props.Toolchain
import Verif.Props.Hang
import Verif.Props.Conflicts
import Verif.Spec.Messages
import Verif.Lemmas.Resolve
import Verif.Props.Messages
import Verif.Props.Duplicates
import Verif.Model.Checked
import Verif.Spec.Size
import Verif.Props.Overflow
import Verif.Spec.Desugar
import Verif.Lemmas.Desugar
import Verif.Props.Desugar
import Verif.Spec.Reorder
import Verif.Lemmas.Iso
import Verif.Lemmas.Rename
import Verif.Props.Reorder
import Verif.Spec.Sharing
import Verif.Lemmas.Sharing
import Verif.Props.Sharing
import Verif.Spec.TokenNames
import Verif.Props.TokenNames
import Verif.Spec.RegexText
import Verif.Props.RegexText
import Verif.Props.RegexCounted
import Verif.Spec.Restart
import Verif.Props.Restart
import Verif.Spec.TwoLexers
import Verif.Props.TwoLexers
import Verif.Spec.GrammarSize
import Verif.Props.GrammarSize
import Verif.Props.PageView
import Verif.Props.Viewer
import Verif.Props.PageMain
import Verif.Props.Joined
import Verif.Spec.Reach
import Verif.Props.DeadRules
import Verif.Props.RuleOrder
import Verif.Model.ParserOut
import Verif.Props.EarliestError
import Verif.Spec.Renumber
import Verif.Props.Renumber
import Verif.Props.LexerOrder
import Verif.Spec.EbnfLaws
import Verif.Lemmas.EbnfLaws
import Verif.Props.Rewriting
import Verif.Spec.Unfold
import Verif.Lemmas.Unfold
import Verif.Props.Inlining
import Verif.Spec.Subtree
import Verif.Props.Subtrees
import Verif.Props.LiteralExact
import Verif.Spec.LeftAt
import Verif.Props.ExactPrefix
import Verif.Spec.Writable
import Verif.Props.Writable
import Verif.Spec.Renaming
import Verif.Props.Renaming
import Verif.Props.PageExact
import Verif.Props.PrintedExact
import Verif.Spec.RegexLongest
import Verif.Lemmas.RegexLongest
import Verif.Props.RegexLongest
