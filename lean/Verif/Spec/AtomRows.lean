import Verif.Model.AtomRows
/-!
# Specification of the rows with atoms

Only the input rows, the output rows and the numbers of surrounded atoms are used.
-/
namespace BaderKit
variable {K : Type} [LinearOrder K]

/-- A tree of domains: a parent comes before its children, exists, and ends where they begin. -/
def DomTree (inp : List (DomIn K)) : Prop :=
  ∀ (d : ℕ) (r : DomIn K) (p : ℕ), inp[d]? = some r → r.parent = some p →
    p < d ∧ ∃ q, inp[p]? = some q ∧ q.maxV = r.minV ∧ q.minV < q.maxV

/-- The link from a row to its parent.  Either it is the same domain with another number of atoms, or the last row of the parent domain. -/
def ARowLink (inp : List (DomIn K)) (out : List (ARow K)) (k : ℕ) (r : ARow K) : Prop :=
  ∃ s, inp[r.src]? = some s ∧
    (r.parent = none → s.parent = none ∧ r.minV = s.minV) ∧
    ∀ p, r.parent = some p → p < k ∧ ∃ q, out[p]? = some q ∧ q.maxV = r.minV ∧
      ((q.src = r.src ∧ q.atoms.length ≠ r.atoms.length) ∨
       (s.parent = some q.src ∧ r.minV = s.minV ∧ ∃ t, inp[q.src]? = some t ∧ q.maxV = t.maxV))

/-- A row is a piece of its domain. -/
def ARowPart (inp : List (DomIn K)) (r : ARow K) : Prop :=
  ∃ s, inp[r.src]? = some s ∧ r.basins = s.basins ∧ r.dim = s.dim ∧ s.minV ≤ r.minV ∧ r.maxV ≤ s.maxV ∧
    (r.minV < r.maxV ∨ (r.minV = s.minV ∧ r.maxV = s.maxV))

/-- At the value `v` the domain `d` is exactly one row. -/
def ARowAt (out : List (ARow K)) (d : ℕ) (v : K) : Prop :=
  ∃! k : ℕ, ∃ r, out[k]? = some r ∧ r.src = d ∧ r.minV ≤ v ∧ v < r.maxV

/-- How many atoms the domain surrounds (an atom counts as often as the domain is listed). -/
def atomCount (surr : List (List ℕ)) (d : ℕ) : ℕ := (surr.map fun l => l.count d).sum


/-- `i` is the first of the largest among the first `n`. -/
def IsFirstMax (n : ℕ) (f : ℕ → ℕ) (i : ℕ) : Prop := i < n ∧ (∀ j < n, f j ≤ f i) ∧ ∀ j < i, f j < f i

/-- The domains around a group, from the inside: a finite group is surrounded by the group of the other kind it touches most, an infinite one
by nothing. -/
inductive SurroundChain (nv nd : ℕ) (voidDim domDim : ℕ → ℕ) (counts : ℕ → ℕ → ℕ) : Group → List ℕ → Prop
  | openVoid (v : ℕ) (h : 0 < voidDim v) : SurroundChain nv nd voidDim domDim counts (.void v) []
  | openDom (d : ℕ) (h : 0 < domDim d) : SurroundChain nv nd voidDim domDim counts (.dom d) [d]
  | shutVoid (v d : ℕ) (l : List ℕ) (h : voidDim v = 0) (hd : IsFirstMax nd (counts v) d)
      (hl : SurroundChain nv nd voidDim domDim counts (.dom d) l) : SurroundChain nv nd voidDim domDim counts (.void v) l
  | shutDom (d v : ℕ) (l : List ℕ) (h : domDim d = 0) (hv : IsFirstMax nv (fun w => counts w d) v)
      (hl : SurroundChain nv nd voidDim domDim counts (.void v) l) : SurroundChain nv nd voidDim domDim counts (.dom d) (d :: l)

/-- `depth` counts how many groups are around a group: a finite group lies one deeper than the group it touches most. -/
def NestDepth (nv nd : ℕ) (voidDim domDim : ℕ → ℕ) (counts : ℕ → ℕ → ℕ) (depth : Group → ℕ) : Prop :=
  (∀ v d, voidDim v = 0 → IsFirstMax nd (counts v) d → depth (.void v) = depth (.dom d) + 1) ∧
  (∀ d v, domDim d = 0 → IsFirstMax nv (fun w => counts w d) v → depth (.dom d) = depth (.void v) + 1)

end BaderKit
