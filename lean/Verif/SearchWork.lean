import Verif.Search

/-!
# The work of the beam search

The beam search of Verif/Search.lean, once more with the number of states that each network is run on. Model of
/repo/harmonic_inference/models/joint_model.py.
-/

namespace Verif

/-- How often `run_csm_batched`, `get_key_change_probs` and `get_key_change_states` run their network on a state. -/
structure Work where
  csm : Nat
  ktm : Nat
  ksm : Nat
  deriving DecidableEq

instance : Add Work := ⟨fun a b => ⟨a.csm + b.csm, a.ktm + b.ktm, a.ksm + b.ksm⟩⟩

namespace SearchData
variable {κ ρ H P : Type} (d : SearchData κ ρ H P) [Add κ] [Sub κ] [Zero κ]
variable {β : Type} (ops : BeamOps β (Nat × State κ H P))

/-- joint_model.py:946-1101: the body of the main loop. The CSM is run at line 950 on all states of the beam, the KTM at
line 1024 on the states with a new chord, the KSM at line 1074 on those that change key, and both at lines 1076-1077 on
the states with a new key. -/
def workBody (start : Nat) (st : List β × Nat) (b : β) : Py ((List β × Nat) × Work) := do
  let objects ← ops.states b
  let states ← d.csmStates start (objects.map (·.2))
  let toCheck ← d.branchAll ops start st.1 states
  let withProbs ← toCheck.mapM d.runKtm
  let branched ← withProbs.mapM (d.keyBranch ops start st.1)
  let changing := (branched.map (·.1)).flatten
  let changed ← changing.mapM d.keyChanges
  let changed ← changed.flatten.mapM d.runHidden
  let st ← changed.foldlM (addState ops) st
  let st ← ((branched.map (·.2)).flatten).foldlM (d.addKept ops) st
  let b ← pyGet st.1 start
  .ok ((st.1.set start (ops.empty b), st.2),
    ⟨if start = 0 then 0 else states.length, toCheck.length + changed.length, changing.length + changed.length⟩)

/-- joint_model.py:938-1101: one iteration of the main loop, with the work so far. -/
def workStep (sw : (List β × Nat) × Work) (start : Nat) : Py ((List β × Nat) × Work) := do
  let b ← pyGet sw.1.1 start
  if ops.len b = 0 then .ok sw
  else do
    let r ← d.workBody ops start sw.1 b
    .ok (r.1, sw.2 + r.2)

/-- joint_model.py:839-1103 `beam_search` with the given class of beams: its result and its work. -/
def workWith : Py (Option (State κ H P) × Work) := do
  let st ← d.initialBeams ops
  let sw ← (List.range d.numInputs).foldlM (d.workStep ops) (st, ⟨0, 0, 0⟩)
  let b ← pyGet sw.1.1 d.numInputs
  let top ← ops.topState b
  .ok (top.map (·.2), sw.2)

/-- joint_model.py:839-1103 `beam_search`: its result and its work. -/
def searchWork [DecidableEq κ] [DecidableEq H] [DecidableEq P] : Py (Option (State κ H P) × Work) :=
  match d.hashLength with
  | none => d.workWith (plainOps d.stateLt)
  | some _ => d.workWith (hashedOps d.stateLt fun a => a.2.node.hash)

end SearchData

end Verif
