import Mathlib.Data.List.Basic
import Mathlib.Logic.Function.Basic
/-!
# Symmetry data kept by a structure

Model of the symmetry part of `Structure`, `src/baderkit/core/toolkit/structure.py:41-45,229-287`: the settings, the analyzer, the data and the
sites they were saved for.

Simplifications.
* The sites are objects in a store; the tuple that is saved holds the objects, not copies of them.  `SymAct` lists what pymatgen's methods do to the
  sites: put a new object in the place of an old one, insert one, remove one, or change one in place (as `translate_sites` or the setter of the lattice).
* `SpacegroupAnalyzer(structure, **kwargs)` analyses the sites when it is made; `analyse` is that analysis, `same` the comparison of two sites.
-/
namespace BaderKit
variable {V Q D : Type}

/-- The fields, `structure.py:42-45`; `nextRef` is the next free place of the store. -/
structure SymState (V Q D : Type) where
  store : ℕ → V
  nextRef : ℕ
  sites : List ℕ
  settings : Q
  data : Option D
  saved : Option (List ℕ)
  analyzer : Option D

/-- What a user does with a structure. For `structure.py:242-246`. -/
inductive SymAct (V Q : Type) where
  | replace (i : ℕ) (v : V)
  | insert (i : ℕ) (v : V)
  | remove (i : ℕ)
  | change (i : ℕ) (v : V)
  | set (q : Q)
  | readAnalyzer
  | readData
  deriving DecidableEq

/-- `Structure.__init__`, `structure.py:35-45`. -/
def symInit (vs : List V) (v0 : V) (q : Q) : SymState V Q D :=
  ⟨fun i => vs.getD i v0, vs.length, List.range vs.length, q, none, none, none⟩

/-- `self._last_symmetry_save != tuple(self)`, `structure.py:258,273`: tuples are equal when their entries are the same objects or equal ones. -/
def symStale (same : V → V → Bool) (st : SymState V Q D) : Bool :=
  match st.saved with
  | none => true
  | some l => !(l.length == st.sites.length && (l.zip st.sites).all fun p => p.1 == p.2 || same (st.store p.1) (st.store p.2))

/-- The sites as they are. For `structure.py:248-261`. -/
def symValues (st : SymState V Q D) : List V := st.sites.map st.store

/-- `spacegroup_analyzer`, `structure.py:248-261`: the new state and the analyzer. -/
def getAnalyzer (same : V → V → Bool) (analyse : List V → Q → D) (st : SymState V Q D) : SymState V Q D × D :=
  let fresh := analyse (symValues st) st.settings
  match st.analyzer with
  | none => ({ st with saved := some st.sites, analyzer := some fresh }, fresh)
  | some a => if symStale same st then ({ st with saved := some st.sites, analyzer := some fresh }, fresh) else (st, a)

/-- `symmetry_data`, `structure.py:263-275`. -/
def getSymData (same : V → V → Bool) (analyse : List V → Q → D) (st : SymState V Q D) : SymState V Q D × D :=
  let renew := let r := getAnalyzer same analyse st; ({ r.1 with data := some r.2 }, r.2)
  match st.data with
  | none => renew
  | some d => if symStale same st then renew else (st, d)

/-- One action: the new state and what was read.  The setter is `structure.py:242-246`. -/
def symAct (same : V → V → Bool) (analyse : List V → Q → D) (st : SymState V Q D) : SymAct V Q → SymState V Q D × Option D
  | .replace i v => ({ st with store := Function.update st.store st.nextRef v, nextRef := st.nextRef + 1, sites := st.sites.set i st.nextRef }, none)
  | .insert i v => ({ st with store := Function.update st.store st.nextRef v, nextRef := st.nextRef + 1, sites := st.sites.insertIdx i st.nextRef }, none)
  | .remove i => ({ st with sites := st.sites.eraseIdx i }, none)
  | .change i v =>
    match st.sites[i]? with
    | none => (st, none)
    | some r => ({ st with store := Function.update st.store r v }, none)
  | .set q => ({ st with settings := q, data := none }, none)
  | .readAnalyzer => let r := getAnalyzer same analyse st; (r.1, some r.2)
  | .readData => let r := getSymData same analyse st; (r.1, some r.2)

/-- A history. For `structure.py:242-246`. -/
def symRun (same : V → V → Bool) (analyse : List V → Q → D) (st : SymState V Q D) (h : List (SymAct V Q)) : SymState V Q D :=
  h.foldl (fun st a => (symAct same analyse st a).1) st

end BaderKit
