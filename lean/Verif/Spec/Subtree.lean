import Verif.Spec.Tree

/-!
# Specification: nodes inside a tree
-/

namespace Syntaxis

/-- the node `x` occurs in the list of trees, with `d` tokens before it -/
inductive Ast.At : List Ast → Nat → Ast → Prop
  | here (x : Ast) (ks : List Ast) : Ast.At (x :: ks) 0 x
  | later (k : Ast) {ks : List Ast} {d : Nat} {x : Ast} (h : Ast.At ks d x) : Ast.At (k :: ks) (k.leaves.length + d) x
  | inside (n : Str) (i : Nat) (ks : List Ast) {kids : List Ast} {d : Nat} {x : Ast} (h : Ast.At kids d x) :
      Ast.At (.rule n i kids :: ks) d x

/-- replacing the node `x`, which has `d` tokens before it, by `y` turns the first list of trees into the second -/
inductive Ast.Put (x y : Ast) : List Ast → Nat → List Ast → Prop
  | here (ks : List Ast) : Ast.Put x y (x :: ks) 0 (y :: ks)
  | later (k : Ast) {ks ks' : List Ast} {d : Nat} (h : Ast.Put x y ks d ks') :
      Ast.Put x y (k :: ks) (k.leaves.length + d) (k :: ks')
  | inside (n : Str) (i : Nat) (ks : List Ast) {kids kids' : List Ast} {d : Nat} (h : Ast.Put x y kids d kids') :
      Ast.Put x y (.rule n i kids :: ks) d (.rule n i kids' :: ks)

end Syntaxis
