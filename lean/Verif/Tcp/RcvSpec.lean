import Verif.Tcp.RcvModel
/-!
# What a TCP receiver is for

The sender has a stream of `L` bytes `str 0, str 1, ...`; byte `x` has sequence number `seqOf base x` and the FIN comes
after byte `L - 1`. Segments are arbitrary pieces of it, in any order, any number of times.
-/
namespace Verif.Tcp
open Verif.Sockbuf (Pkt)

/-- `n` bytes of the stream from offset `a`. -/
def slice (str : Nat → UInt8) (a n : Nat) : List UInt8 := (List.range n).map fun i => str (a + i)

/-- Everything handed to the application: what it has read and what waits in the socket buffer. -/
def delivered (s : Rcv) : List UInt8 := s.readBytes ++ (s.buf.map Pkt.data).flatten

/-- `g` is a piece of the stream (with FIN only at the end of the stream), less than 2^31 away from the receive
sequence number. -/
def PieceOf (base : BitVec 32) (str : Nat → UInt8) (L : Nat) (r : Nat) (g : Seg) : Prop :=
  ∃ x, g.seq = seqOf base x ∧ g.payload = slice str x g.payload.length ∧ x + g.payload.length ≤ L ∧
    (g.fin = true → x + g.payload.length = L) ∧
    (x + g.payload.length : Int) - r < 2 ^ 31 ∧ (r : Int) + 1 - x < 2 ^ 31 ∧
    -- the FIN, if any, lies inside the receive window
    (g.fin = true → x + g.payload.length ≤ r + g.wnd)

/-- Circumstances under which the code keeps its promise: no padding behind the IP datagram, a window of at most
2^30 bytes (65535 * 2^14 is the protocol maximum), and room in the 63-slot socket buffer for everything queued. -/
def Benign (s : Rcv) (g : Seg) : Prop :=
  g.pad = [] ∧ g.wnd ≤ 2 ^ 30 ∧ s.buf.length + s.segq.length + 1 ≤ 63

/-- The states reachable while pieces of one stream arrive in benign circumstances. -/
inductive Hist (c : Cfg) (base : BitVec 32) (str : Nat → UInt8) (L : Nat) : Rcv → Prop
  | init (ph : Phase) (h : ph ≠ .finRcvd) : Hist c base str L (Rcv.init ph (seqOf base 0))
  | seg (s : Rcv) (g : Seg) : Hist c base str L s → PieceOf base str L (delivered s).length g → Benign s g →
      Hist c base str L (segment c s g)
  | read (s : Rcv) (n : Nat) : Hist c base str L s → Hist c base str L (appRead s n)

/-- The states reachable with arbitrary segments, as long as a segment does not end 2^31 or more beyond `rcv_nxt` and
the window is at most 2^30. -/
inductive AnyHist (c : Cfg) : Rcv → Prop
  | init (ph : Phase) (n : BitVec 32) : AnyHist c (Rcv.init ph n)
  | seg (s : Rcv) (g : Seg) : AnyHist c s → diff g.seq s.nxt + g.payload.length < 2 ^ 31 →
      -2 ^ 31 < diff g.seq s.nxt → g.wnd ≤ 2 ^ 30 →
      AnyHist c (segment c s g)
  | read (s : Rcv) (n : Nat) : AnyHist c s → AnyHist c (appRead s n)

/-- How often packet `i` is in the reassembly queue, in the socket buffer, or freed. -/
def places (s : Rcv) (i : Nat) : Nat :=
  (s.segq.map fun q => q.pkt.id).count i + (s.buf.map Pkt.id).count i + s.freed.count i

end Verif.Tcp
