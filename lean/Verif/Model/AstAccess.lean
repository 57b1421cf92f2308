import Verif.Model.Ast
import Verif.Model.Str

/-!
# `runtime/ast/rule_context.rs`: accessors and `Display`

References to children (`&TerminalContext`, `&ErrorContext`, `&RuleContext`) are the values themselves.
-/

namespace Syntaxis

mutual
/-- `rule_context.rs:37-45`, `get_first_terminal`: the `match` on the child. -/
def firstTerminalOf : Ast → Option Token
  | .terminal tok => some tok
  | .rule _ _ kids => firstTerminal kids
  | .error _ => none
/-- `rule_context.rs:37-45`, `get_first_terminal`, on the children: looks at `children[0]` only. -/
def firstTerminal : List Ast → Option Token
  | [] => none
  | k :: _ => firstTerminalOf k
end

mutual
/-- `rule_context.rs:47-54`, `get_last_terminal`: the `match` on the child. -/
def lastTerminalOf : Ast → Option Token
  | .terminal tok => some tok
  | .rule _ _ kids => lastTerminal kids
  | .error _ => none
/-- `rule_context.rs:47-54`, `get_last_terminal`, on the children: looks at `children.last()` only. -/
def lastTerminal : List Ast → Option Token
  | [] => none
  | [k] => lastTerminalOf k
  | _ :: k :: ks => lastTerminal (k :: ks)
end

mutual
/-- `rule_context.rs:56-64`, `get_start_token`: the `match` on the child. -/
def startTokenOf : Ast → Option Token
  | .terminal tok => some tok
  | .rule _ _ kids => startToken kids
  | .error tok => some tok
/-- `rule_context.rs:56-64`, `get_start_token`, on the children: looks at `children[0]` only. -/
def startToken : List Ast → Option Token
  | [] => none
  | k :: _ => startTokenOf k
end

mutual
/-- `rule_context.rs:66-73`, `get_stop_token`: the `match` on the child. -/
def endTokenOf : Ast → Option Token
  | .terminal tok => some tok
  | .rule _ _ kids => endToken kids
  | .error tok => some tok
/-- `rule_context.rs:66-73`, `get_stop_token`, on the children: looks at `children.last()` only. -/
def endToken : List Ast → Option Token
  | [] => none
  | [k] => endTokenOf k
  | _ :: k :: ks => endToken (k :: ks)
end

namespace RuleContext

/-- `rule_context.rs:31` -/
def getChildren (r : RuleContext) : List Ast := r.children
/-- `rule_context.rs:33` -/
def getChildCount (r : RuleContext) : Nat := r.children.length
/-- `rule_context.rs:35` -/
def getRuleIndex (r : RuleContext) : Nat := r.ruleIndex

/-- `rule_context.rs:37-45` -/
def getFirstTerminal (r : RuleContext) : Option Token := firstTerminal r.children
/-- `rule_context.rs:47-54` -/
def getLastTerminal (r : RuleContext) : Option Token := lastTerminal r.children
/-- `rule_context.rs:56-64` -/
def getStartToken (r : RuleContext) : Option Token := startToken r.children
/-- `rule_context.rs:66-73` -/
def getStopToken (r : RuleContext) : Option Token := endToken r.children

/-- `rule_context.rs:80-88`: the loop pushing matching terminals. -/
def terminalsLoop (tokenType : Nat) : List Ast → List Token → List Token
  | [], result => result
  | .terminal tok :: ks, result =>
    if tok.tokenType = tokenType then terminalsLoop tokenType ks (result ++ [tok])
    else terminalsLoop tokenType ks result
  | _ :: ks, result => terminalsLoop tokenType ks result

/-- `rule_context.rs:80-88`, `get_terminals`. -/
def getTerminals (r : RuleContext) (tokenType : Nat) : List Token := terminalsLoop tokenType r.children []

/-- `rule_context.rs:75-78`, `get_terminal`. -/
def getTerminal (r : RuleContext) (tokenType i : Nat) : Option Token :=
  let tokens := r.getTerminals tokenType
  if h : i < tokens.length then some tokens[i] else none

/-- `rule_context.rs:95-103`: the loop pushing matching error nodes. -/
def errornodesLoop (tokenType : Nat) : List Ast → List Token → List Token
  | [], result => result
  | .error tok :: ks, result =>
    if tok.tokenType = tokenType then errornodesLoop tokenType ks (result ++ [tok])
    else errornodesLoop tokenType ks result
  | _ :: ks, result => errornodesLoop tokenType ks result

/-- `rule_context.rs:95-103`, `get_errornodes`. -/
def getErrornodes (r : RuleContext) (tokenType : Nat) : List Token := errornodesLoop tokenType r.children []

/-- `rule_context.rs:90-93`, `get_errornode`. -/
def getErrornode (r : RuleContext) (tokenType i : Nat) : Option Token :=
  let errors := r.getErrornodes tokenType
  if h : i < errors.length then some errors[i] else none

/-- `rule_context.rs:110-118`: the loop pushing matching rule contexts. -/
def ruleContextsLoop (ruleType : Nat) : List Ast → List RuleContext → List RuleContext
  | [], result => result
  | .rule n i kids :: ks, result =>
    if i = ruleType then ruleContextsLoop ruleType ks (result ++ [⟨n, kids, i⟩])
    else ruleContextsLoop ruleType ks result
  | _ :: ks, result => ruleContextsLoop ruleType ks result

/-- `rule_context.rs:110-118`, `get_rule_contexts`. -/
def getRuleContexts (r : RuleContext) (ruleType : Nat) : List RuleContext :=
  ruleContextsLoop ruleType r.children []

/-- `rule_context.rs:105-108`, `get_rule_context`. -/
def getRuleContext (r : RuleContext) (ruleType index : Nat) : Option RuleContext :=
  let rules := r.getRuleContexts ruleType
  if h : index < rules.length then some rules[index] else none

/-- `rule_context.rs:121-129`, `get_text`. -/
def getText (r : RuleContext) (input : Str) : Res Str :=
  match r.getStartToken with
  | none => slice input 0 0
  | some start =>
    match r.getStopToken with
    | none => slice input 0 0
    | some stop => slice input start.charStartIndex stop.charStopIndex

end RuleContext

mutual
/-- `ast_context.rs:24-32`, `rule_context.rs:132-142`, `terminal_context.rs:18-22`,
`error_context.rs:20-24`: `Display`. -/
def Ast.display : Ast → Str
  | .terminal tok => tok.tokenName
  | .error tok => tok.tokenName
  | .rule name _ kids => name ++ " (".toList ++ Ast.displayList kids ++ ")".toList
/-- `rule_context.rs:134-137`: each child followed by a space. -/
def Ast.displayList : List Ast → Str
  | [] => []
  | k :: ks => k.display ++ [' '] ++ Ast.displayList ks
end

end Syntaxis
