import Verif.Workflow.RunLemmas
/- Concrete workflows, used to show that the hypotheses of the theorems are met and as counterexamples. -/
namespace DC.Wkf

/-- `list(set(l))` in order of last occurrence. -/
def dedupOrder : SetOrder where
  list := List.dedup
  nodup := List.nodup_dedup
  mem _ _ := List.mem_dedup

/-- `list(set(l))` in the reverse order. -/
def reverseOrder : SetOrder where
  list l := l.dedup.reverse
  nodup l := List.nodup_reverse.2 (List.nodup_dedup l)
  mem l x := by rw [List.mem_reverse, List.mem_dedup]

def addEval : List Int → Except PyErr (List Int)
  | [a, b] => .ok [a + b]
  | _ => .error .typeError

def dblEval : List Int → Except PyErr (List Int)
  | [a] => .ok [2 * a]
  | _ => .error .typeError

/-- `10 -> add.1`, `add.2 -> double`, `add.2 -> other`, the last one being out of the way to the output.  Input 0 has a
default value. -/
def exW : Workflow Int where
  blocks := [⟨[3], [4], dblEval⟩, ⟨[0, 1], [2], addEval⟩, ⟨[5, 6], [7], addEval⟩]
  pipes := [⟨2, 3, false⟩, ⟨10, 1, false⟩, ⟨2, 5, true⟩]
  output := some 4
  default v := if v = 0 then some 7 else none
  lockFlag _ := false

def exRank (v : Nat) : Nat := if v = 0 ∨ v = 10 ∨ v = 6 then 0 else if v = 1 then 1 else if v = 2 then 2 else if v = 3 ∨ v = 5 then 3 else 4

theorem exW_wf : WellFormed exW where
  distinct := by decide
  single := by decide
  target := by decide
  source := by decide
  acyclic := ⟨exRank, by decide, by decide⟩

theorem exW_locks : LocksOk exW := fun _ h => by simp [exW] at h

theorem exW_inputs : inputs exW = [0, 6, 10] := by decide

/-- The same with its first input locked. -/
def exL : Workflow Int := { exW with lockFlag := fun v => v = 0 }

/-- A value goes from a block to an other through a free variable: `1 -> 10 -> 2`. -/
def exN : Workflow Int where
  blocks := [⟨[0], [1], dblEval⟩, ⟨[2], [3], dblEval⟩]
  pipes := [⟨1, 10, false⟩, ⟨10, 2, false⟩]
  output := some 3
  default _ := none
  lockFlag _ := false

end DC.Wkf
