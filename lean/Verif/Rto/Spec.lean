import Verif.Rto.Model

/-! # What the retransmission timer should do, said without the code -/

namespace Verif.Rto

/-- The two configuration values are in a sensible range: a minimum of at least one tick and
at most 3 s, at most 64 s of slop. -/
def Cfg.Sane (c : Cfg) : Prop := 1 ≤ c.rmin ∧ c.rmin ≤ 300 ∧ 0 ≤ c.slop ∧ c.slop ≤ 6400

instance (c : Cfg) : Decidable c.Sane := by unfold Cfg.Sane; infer_instance

/-- Every measurement made during the history lies between `a` and `b` ticks. -/
def Measured (c : Cfg) (a b : Int) : Rtt → List Ev → Prop
  | _, [] => True
  | s, e :: es =>
    (match e with
     | .ack ticks off ts newer => ∀ r, measure s ticks off ts newer = some r → a ≤ r ∧ r ≤ b
     | _ => True) ∧
    (match step c s e with
     | none => True
     | some s' => Measured c a b s' es)

/-- A state a connection can be in if every round trip measured on it took at most `B` ticks. -/
def Reached (c : Cfg) (B : Int) (s : Rtt) : Prop :=
  ∃ es, Measured c 0 B (fresh c) es ∧ run c (fresh c) es = some s

/-- The state after `n` timeouts in a row with nothing heard from the peer; `none` if the
connection has been given up. -/
def silent (c : Cfg) (synSent : Bool) : Nat → Rtt → Option Rtt
  | 0, s => some s
  | n + 1, s => match silent c synSent n s with
    | none => none
    | some s' => match rexmtFire c synSent s' with
      | .dropped _ => none
      | .again t => some t

/-- The time from the moment the retransmission timer is started until the `n`-th timeout in a
row, if nothing is heard from the peer (each timeout restarts the timer with the new value). -/
def silence (c : Cfg) (synSent : Bool) : Nat → Rtt → Int
  | 0, _ => 0
  | n + 1, s => silence c synSent n s + (match silent c synSent n s with
    | none => 0
    | some s' => s'.rxtcur)

/-- Events that count towards giving up. -/
def Ev.counts : Ev → Bool
  | .timeout _ => true
  | .persist => true
  | _ => false

end Verif.Rto
