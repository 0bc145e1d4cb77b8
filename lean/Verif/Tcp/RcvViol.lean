import Verif.Tcp.RcvMain
/-!
# C30, C31, C50: non-vacuity, and the ways the code breaks its promise

Each `_violated` theorem exhibits a concrete run of the model; every segment in it is a piece of one stream.
-/
namespace Verif.Tcp
open Verif.Sockbuf (Pkt)

/-- The stream 1, 2, 3, ... -/
def str1 (i : Nat) : UInt8 := UInt8.ofNat (i + 1)

/-- A segment with `n` bytes of `str1` from offset `x`, sequence numbers starting at `base`. -/
def mk (base : BitVec 32) (id x n : Nat) (fin : Bool) (wnd : Nat) : Seg :=
  ⟨id, seqOf base x, slice str1 x n, [], fin, wnd, true, true, true⟩

def cfg1 : Cfg := ⟨1856, 44⟩

/-- Out of order, overlapping, duplicated, across the sequence wrap-around (`base = 0xfffffffc`), FIN first. -/
def demo : List Seg :=
  [mk 0xfffffffc 0 8 2 true 60000, mk 0xfffffffc 1 3 4 false 60000, mk 0xfffffffc 2 0 2 false 60000,
   mk 0xfffffffc 3 0 5 false 60000, mk 0xfffffffc 4 6 4 true 60000]

/-- The run ends with the whole stream delivered and the end of file reported. -/
theorem demo_run : (demo.foldl (segment cfg1) (Rcv.init .open 0xfffffffc)).buf.map Pkt.data =
      [[1, 2], [3, 4, 5], [6, 7], [8, 9, 10]] ∧
    (demo.foldl (segment cfg1) (Rcv.init .open 0xfffffffc)).cantrcv = true := by decide +kernel

theorem mk_piece (base : BitVec 32) (id x n L r wnd : Nat) (fin : Bool) (h1 : x + n ≤ L) (h2 : fin = true → x + n = L)
    (h3 : (x + n : Int) - r < 2 ^ 31) (h4 : (r : Int) + 1 - x < 2 ^ 31) (h5 : fin = true → x + n ≤ r + wnd) :
    PieceOf base str1 L r (mk base id x n fin wnd) := by
  have hl : (mk base id x n fin wnd).payload.length = n := by simp [mk, slice]
  refine ⟨x, rfl, ?_, ?_, ?_, ?_, h4, ?_⟩
  · rw [hl]; rfl
  · rw [hl]; exact h1
  · rw [hl]; exact h2
  · rw [hl]; exact h3
  · rw [hl]; exact h5

/-- Non-vacuity of C30: the run above satisfies the hypotheses of `stream_exact_partial`, with a 10-byte stream. -/
example : Hist cfg1 0xfffffffc str1 10 (demo.foldl (segment cfg1) (Rcv.init .open 0xfffffffc)) := by
  have hn : (Rcv.init .open 0xfffffffc) = Rcv.init .open (seqOf 0xfffffffc 0) := rfl
  rw [hn]
  simp only [demo, List.foldl_cons, List.foldl_nil]
  refine .seg _ _ (.seg _ _ (.seg _ _ (.seg _ _ (.seg _ _ (.init .open (by decide)) ?_ ?_) ?_ ?_) ?_ ?_) ?_ ?_) ?_ ?_
  all_goals first
    | exact ⟨rfl, by decide, by decide +kernel⟩
    | (refine mk_piece _ _ _ _ _ _ _ _ (by decide) (by decide) ?_ ?_ ?_ <;> decide +kernel)

/-- Non-vacuity of `queue_bounded`: an out-of-order segment waits in the queue. -/
example : ∃ s, AnyHist cfg1 s ∧ s.segq.length = 1 :=
  ⟨segment cfg1 (Rcv.init .open 0) (mk 0 1 3 4 false 60000),
    .seg _ _ (.init .open 0) (by decide +kernel) (by decide +kernel) (by decide), by decide +kernel⟩

/-- Non-vacuity of `stream_progress`: the hole in front of a queued segment is filled. -/
example : (delivered (segment cfg1 (segment cfg1 (Rcv.init .open 0) (mk 0 1 3 4 false 60000))
    (mk 0 2 0 3 false 60000))).length = 7 := by decide +kernel

/-- **C30 is false for padded frames**: `ofp_tcp_input` takes the segment length from the IP header but hands the whole
packet to the socket buffer; the bytes an Ethernet driver leaves behind the datagram are read by the application as
data although `rcv_nxt` does not count them. -/
theorem padding_delivered_violated (c : Cfg) (s : Rcv) (g : Seg) (ho : s.phase = .open) (hq : s.segq = [])
    (hc : s.cantrcv = false) (hs : s.buf.length < 63) (hpr : g.pred = true) (hf : g.fin = false)
    (hseq : g.seq = s.nxt) (hne : g.payload ≠ []) (hsp : g.payload.length ≤ c.bufSize * (63 - s.buf.length)) :
    delivered (segment c s g) = delivered s ++ g.payload ++ g.pad ∧
    (segment c s g).nxt = s.nxt + BitVec.ofNat 32 g.payload.length := by
  have hcond : s.phase = .open ∧ g.pred = true ∧ g.seq = s.nxt ∧ g.fin = false ∧ s.segq = [] ∧ g.payload.length ≠ 0 ∧
      g.payload.length ≤ s.space c := ⟨ho, hpr, hseq, hf, hq, by simpa using hne, hsp⟩
  unfold segment
  simp only
  rw [if_pos hcond]
  unfold Rcv.append
  rw [hc]
  simp only [Bool.false_eq_true, if_false, hs, if_true]
  refine ⟨?_, trivial⟩
  unfold delivered
  simp [List.append_assoc]

/-- 62 one-byte segments in order, two out of order, then the missing one. -/
def floodSegs : List Seg := ((List.range 62).map fun i => mk 0 i i 1 false 60000) ++
  [mk 0 63 63 1 false 60000, mk 0 65 65 1 false 60000, mk 0 64 64 1 false 60000, mk 0 62 62 1 false 60000]

/-- **C30 is false when the socket buffer's 63 slots run out**: room is checked for the arriving segment only, not for
the queued ones that become deliverable with it. Here 66 bytes are acknowledged and 63 can ever be read. -/
theorem acked_data_lost_violated :
    (floodSegs.foldl (segment cfg1) (Rcv.init .open 0)).nxt = seqOf 0 66 ∧
    (floodSegs.foldl (segment cfg1) (Rcv.init .open 0)).segq = [] ∧
    (delivered (floodSegs.foldl (segment cfg1) (Rcv.init .open 0))).length = 63 ∧
    (floodSegs.foldl (segment cfg1) (Rcv.init .open 0)).freed = [63, 64, 65] := by decide +kernel

/-- **C50 is false**: a segment that carries FIN but reaches beyond the receive window is cut at the window, and its
FIN with it (`thflags`), but `th->th_flags` is what is tested later: the application sees the end of the stream
after `wnd` bytes although the rest was cut off. -/
theorem early_eof_violated :
    (segment cfg1 (Rcv.init .open 0) (mk 0 0 0 4 true 2)).cantrcv = true ∧
    delivered (segment cfg1 (Rcv.init .open 0) (mk 0 0 0 4 true 2)) = [1, 2] ∧
    (segment cfg1 (segment cfg1 (Rcv.init .open 0) (mk 0 0 0 4 true 2)) (mk 0 1 2 2 true 2)).freed = [1] := by
  decide +kernel

/-- **The window test wraps**: a segment almost 2^31 beyond the window passes it and is queued, whatever the window
(`todrop` is computed modulo 2^32, src/ofp_tcp_input.c:2154). This is why `queue_bounded` and C30 need their distance
hypothesis. -/
theorem window_wraps_violated :
    let g : Seg := ⟨1, BitVec.ofNat 32 (2 ^ 31 - 1), [1, 2], [], false, 1, true, true, true⟩
    (segment cfg1 (Rcv.init .open 0) g).segq = [⟨BitVec.ofNat 32 (2 ^ 31 - 1), 2, false, ⟨1, [1, 2]⟩, false⟩] := by
  decide +kernel

/-- Non-vacuity of `padding_delivered_violated` and `flush_leaks_violated`. -/
example : delivered (segment cfg1 (Rcv.init .open 0) ⟨1, 0, [7], [0, 0], false, 9, true, true, true⟩) = [7, 0, 0] := by
  decide +kernel
example : 0 < ((segment cfg1 (Rcv.init .open 0) (mk 0 1 3 4 false 60000)).segq.map fun q => q.pkt.id).count 1 := by
  decide +kernel

end Verif.Tcp
