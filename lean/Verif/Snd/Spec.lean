import Verif.Snd.Model
/-!
# What a user of a TCP socket relies on when sending

Positions: byte number `k` of the stream the application wrote travels with sequence number `iss + 1 + k`; the FIN
travels with sequence number `iss + 1 + n` when `n` bytes were written in all.
-/
namespace Verif.Snd
open Verif.Tcp

/-- The send buffer's limit used throughout: 2^30 bytes (`sb_max` is far below). -/
def BufMax : Nat := 2 ^ 30

/-- Sequence number of byte `k` of the stream. -/
def seqOfByte (iss : BitVec 32) (k : Nat) : BitVec 32 := seqOf iss (k + 1)

/-- The payload of a segment is a piece of the stream, at the position its sequence number says.  The position is
determined by the sequence number: it is one of the last 2^30 bytes written. -/
def Faithful (iss : BitVec 32) (written : List UInt8) (p : Pkt) : Prop :=
  p.data = [] ∨ ∃ k, p.seq = seqOfByte iss k ∧ k + p.data.length ≤ written.length ∧ written.length ≤ k + BufMax ∧
    p.data = ((written.drop k).take p.data.length).map some

/-- A FIN sits right behind the last byte of the stream. -/
def FinAtEnd (iss : BitVec 32) (written : List UInt8) (p : Pkt) : Prop :=
  p.fin = true → p.seq + BitVec.ofNat 32 p.data.length = seqOfByte iss written.length

/-- A connection whose three-way handshake has just been completed, before the application does anything. -/
structure Fresh (s : Tcb) : Prop where
  st : s.st = .established
  una : s.una = seqOfByte s.iss 0
  nxt : s.nxt = seqOfByte s.iss 0
  max : s.max = seqOfByte s.iss 0
  buf : s.buf = []
  written : s.written = []
  flags : s.needSyn = false ∧ s.needFin = false ∧ s.sentFin = false ∧ s.cantSend = false ∧ s.force = false
  live : s.dead = false ∧ s.hung = false
  timers : s.rexmt = false ∧ s.persist = false
  ghosts : s.squeezed = false ∧ s.finProbe = false

/-- Segment sizes as every caller sets them: room for at least one byte after the options, at most 64 KiB. -/
def Env.Ok (e : Env) : Prop :=
  e.optlen + e.ipoptlen < e.maxopd ∧ e.maxopd ≤ 65535 ∧ e.hdrlen < 65535

/-- The passes an event makes. -/
def Ev.envs : Ev → List Env
  | .write _ es => es
  | .oob _ es => es
  | .close es => es
  | .seg _ r => r.es1 ++ r.es2
  | .rexmtTimer es => es
  | .persistTimer es => es
  | .delackTimer es => es
  | .rcvd es => es
  | .mtudisc es => es
  | .drop es => es

/-- The bytes an event appends. -/
def Ev.bytes : Ev → List UInt8
  | .write d _ => d
  | .oob d _ => d
  | _ => []

/-- A history from a fresh connection in which segment sizes are sane and the send buffer never exceeds its limit:
`Hist s0 s ps`, from `s0` to `s`, having sent `ps`. -/
inductive Hist : Tcb → Tcb → List Pkt → Prop where
  | nil {s : Tcb} : Fresh s → Hist s s []
  | snoc {s0 s : Tcb} {ps : List Pkt} (ev : Ev) : Hist s0 s ps → (∀ e ∈ ev.envs, e.Ok) →
      s.buf.length + ev.bytes.length ≤ BufMax → Hist s0 (step s ev).1 (ps ++ (step s ev).2)

/-- A FIN sent as a window probe. -/
def FinProbe (p : Pkt) : Prop := p.fin = true ∧ p.forced = true

end Verif.Snd
