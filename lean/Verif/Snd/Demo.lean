import Verif.Snd.Spec
/-!
# Concrete connections for the examples and counterexamples
-/
namespace Verif.Snd
open Verif.Tcp

/-- A connection right after the handshake: `iss = 1000`, peer's next sequence number 5001, window 100. -/
def demo : Tcb :=
  { st := .established, iss := 1000, una := 1001, nxt := 1001, max := 1001, wnd := 100, maxwnd := 100, buf := [],
    needSyn := false, needFin := false, sentFin := false, acknow := false, delack := false, force := false,
    noopt := false, sackPermit := false, fastrec := false, rexmt := false, persist := false, recover := 1001,
    wl1 := 5000, wl2 := 1001, dupacks := 0, sackNewdata := 1001, irs := 5000, rcvNxt := 5001, rcvAdv := 70537,
    lastAckSent := 5001, cantSend := false, dead := false, hung := false, written := [], squeezed := false,
    finProbe := false }

/-- An ordinary pass: 1000-byte segments, no SACK, everything succeeds. -/
def envOk : Env :=
  { cwnd := 10000, adjust := 0, hole := none, sackBytes := 0, tso := false, maxseg := 1000, maxopd := 1000, optlen := 0,
    ipoptlen := 0, hdrlen := 40, nodelay := true, urg := false, wndUpdate := false, recwin := 65536, alloc := true,
    sent := true }

/-- A pass without a packet in the pool. -/
def envNoBuf : Env := { envOk with alloc := false }

/-- An ordinary reception: nothing delivered, passes `es`. -/
def renv (es : List Env) : REnv :=
  { space := 65536, paws := false, noFd := false, insecureRst := false, scaled := true, predOk := true,
    holesEmpty := true, thresh := 3, limited := false, delay := false, cantRcv := false, rcvTo := 5001, finUp := false,
    es1 := es, es2 := es }

/-- An empty segment with the ACK bit. -/
def ackSeg (seq ack : BitVec 32) (win : Nat) : Seg :=
  { seq := seq, ack := ack, syn := false, ackf := true, fin := false, rst := false, urgf := false, win := win, tlen := 0 }

theorem demo_fresh : Fresh demo := by
  constructor <;> decide

theorem envOk_ok : envOk.Ok := by unfold Env.Ok; decide

end Verif.Snd
