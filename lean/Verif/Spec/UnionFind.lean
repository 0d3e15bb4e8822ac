import Mathlib.Logic.Relation
import Mathlib.Algebra.Group.Basic
import Verif.Model.UnionFind
/-!
# Independent specification of union-find
-/
namespace BaderKit

/-- `a` and `b` are connected by the requested pairs: the equivalence relation generated by them. -/
def Connected {α : Type*} (pairs : List (α × α)) : α → α → Prop :=
  Relation.EqvGen fun a b => (a, b) ∈ pairs

/-- `r` is the end of the parent chain of `x`. -/
inductive RootOf {α : Type*} (p : α → α) : α → α → Prop
  | base {r} : p r = r → RootOf p r r
  | step {x r} : RootOf p (p x) r → RootOf p x r

/-- The pairs passed to `union` in a history. -/
def unionsOf {α : Type*} : List (UFOp α) → List (α × α)
  | [] => []
  | .union x y :: os => (x, y) :: unionsOf os
  | _ :: os => unionsOf os

/-- All indices used by an operation satisfy `S`. -/
def UFOp.InSet {α : Type*} (S : α → Prop) : UFOp α → Prop
  | .find x => S x
  | .findNC x => S x
  | .union x y => S x ∧ S y

/-- The requests made by a history of the shift-tracking union-find. -/
def requestsOf {α G : Type*} : List (ShiftOp α G) → List (α × α × G)
  | [] => []
  | .union a b s :: os => (a, b, s) :: requestsOf os
  | _ :: os => requestsOf os

/-- The pairs of a list of requests. -/
def pairsOf {α G : Type*} (l : List (α × α × G)) : List (α × α) := l.map fun e => (e.1, e.2.1)

/-- The requests that join two groups not connected before (the others are ignored by a union-find
without cycles): `Effective done todo e` says that `e` is one of those in `todo`, if `done` was
processed before. -/
inductive Effective {α G : Type*} : List (α × α × G) → List (α × α × G) → α × α × G → Prop
  | here {dn e td} : ¬ Connected (pairsOf dn) e.1 e.2.1 → Effective dn (e :: td) e
  | there {dn e td e'} : Effective (dn ++ [e]) td e' → Effective dn (e :: td) e'

/-- An assignment of positions respects a shift request `(a, b, s)`: `b` sits at `a` plus the
shift. -/
def Respects {α G : Type*} [Add G] (pos : α → G) (e : α × α × G) : Prop :=
  pos e.2.1 = pos e.1 + e.2.2

end BaderKit
