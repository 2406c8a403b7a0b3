import Verif.Spec.Fine

/-!
# Specification: where a run can fail
-/

namespace P2T

/-- The run of the code on the points `c` reaches the edge event of the edge `p q` and this call of
`edge_event` fails with `e`: the initial state is built, the points before `q` in sweep order are swept, the point event of `q`
and the earlier edge events of `q` succeed (all with their callbacks), and then `edge_event` returns `e`. -/
def EdgeEventFails (g : Trap) (c : Ctx) (fuel p q : Nat) (e : Err) : Prop :=
  ∃ s0 pre pt es post s1 s2 l1 l2 s3,
    initState c = .ok s0 ∧
    c.iterByY 1 = .ok (pre ++ (q, pt, es) :: post) ∧
    sweepLoop g c fuel pre s0 = .ok s1 ∧
    pointEvent c fuel (s1.emit (.enterPoint q)) q pt = .ok s2 ∧
    es.toList = l1 ++ p :: l2 ∧
    edgeEvents g c fuel q pt l1 (s2.emit (.exitPoint q)) = .ok s3 ∧
    edgeEvent g c fuel s3 ⟨p, q⟩ pt = .error e

end P2T
