import Verif.Avtab.Model

/-!
# Specification vocabulary for access vector tables

The abstract content of a table is a log: the list of accepted rules, most
recent first.  Nothing here mentions buckets, chains or the hash.
-/

namespace Verif.Avtab

/-- One update through the API. -/
inductive Op
  | insert (k : Key) (d : Datum)
  | insertNonunique (k : Key) (d : Datum)

def Op.key : Op → Key
  | .insert k _ => k
  | .insertNonunique k _ => k

/-- Rule `r` answers a query for key `k`: same source, target, class, and the
kinds asked for (enabled flag aside) include a kind of `r`. -/
def Answers (k : Key) (r : Node) : Prop :=
  k.source = r.key.source ∧ k.target = r.key.target ∧ k.cls = r.key.cls ∧
  ∃ i < 15, k.specified.getLsbD i = true ∧ r.key.specified.getLsbD i = true

/-- The rule has exactly one kind (as every rule of a real policy has). -/
def SingleKind (s : BitVec 16) : Prop :=
  ∃ i < 15, ∀ j < 15, s.getLsbD j = true ↔ j = i

/-- What the caller gets to see as the stored rule: for an extended permission
rule a permission block is always present. -/
def stored (k : Key) (d : Datum) : Node :=
  ⟨k, if isXperm k then ⟨d.data, some (d.xperms.getD XPerms.zero)⟩ else d⟩

open Classical in
/-- Accepted-rule log (most recent first) after one more update: `avtab_insert` of
a rule without extended permissions is refused when some logged rule answers its
key; everything else is accepted. -/
noncomputable def logStep (log : List Node) : Op → List Node
  | .insert k d =>
    if isXperm k = false ∧ ∃ r ∈ log, Answers k r then log else stored k d :: log
  | .insertNonunique k d => stored k d :: log

/-- The log after a history. -/
noncomputable def logOf (ops : List Op) : List Node := ops.foldl logStep []

/-- Run one update on the model table (refused updates keep the table). -/
def step (h : Avtab) : Op → Avtab
  | .insert k d => (insert h k d).1
  | .insertNonunique k d => (insertNonunique h k d).getD h

/-- The table after `avtab_init; avtab_alloc(nrules); ops`. -/
def run (nrules : Nat) (ops : List Op) : Avtab := ops.foldl step (alloc init nrules)

end Verif.Avtab
