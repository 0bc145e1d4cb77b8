import Verif.Rto.Model

/-!
# The congestion window

Every place in the source that writes `snd_cwnd` or `snd_ssthresh` outside `#if 0` and comments:
`ofp_tcp_newtcpcb`, `syncache_socket`, the acknowledgement processing of `ofp_tcp_do_segment`,
`tcp_newreno_partial_ack`, `ofp_tcp_sack_partialack`.  The congestion control functions
themselves (`cc_ack_received`, `cc_conn_init`, `ofp_cc_cong_signal`, `cc_post_recovery`,
`cc_after_idle`) have empty bodies, and their calls on timeouts are commented out.
-/

namespace Verif.Rto

/-- `snd_cwnd`, `snd_ssthresh`, `snd_wnd`, `t_maxseg` (include/ofpi_tcp_var.h:120-150), 64-bit
unsigned (the arithmetic below stays far from 2^64). -/
structure Cw where
  cwnd : Nat
  ssthresh : Nat
  wnd : Nat
  maxseg : Nat
  deriving Repr, DecidableEq

/-- `OFP_TCP_MAXWIN << OFP_TCP_MAX_WINSHIFT`. -/
def maxWindow : Nat := 65535 * 2 ^ 14

/-- `ofp_tcp_newtcpcb` (src/ofp_tcp_subr.c:786-787); `rexmitted` as in `syncache_socket`
(src/ofp_tcp_syncache.c:744-745). -/
def cwFresh (wnd maxseg : Nat) (rexmitted : Bool) : Cw :=
  { cwnd := if rexmitted then maxseg else maxWindow, ssthresh := maxWindow, wnd := wnd, maxseg := maxseg }

/-- Loss and acknowledgement events. -/
inductive CwEv where
  /-- New data is acknowledged outside recovery (src/ofp_tcp_input.c:2579); then the window in
  the segment is taken over. -/
  | newAck (wnd : Nat)
  /-- New data is acknowledged during recovery without SACK: `tcp_newreno_partial_ack`
  (src/ofp_tcp_input.c:3644-3648), then as above. -/
  | partialAck (acked wnd : Nat)
  /-- The same with SACK: `ofp_tcp_sack_partialack` (src/ofp_tcp_sack.c:557-576). -/
  | sackPartialAck (rexmitted segs wnd : Nat)
  /-- The third duplicate acknowledgement (src/ofp_tcp_input.c:2416-2425). -/
  | third (dupacks limited : Nat)
  /-- A further duplicate acknowledgement (src/ofp_tcp_input.c:2352-2378); `inject`: SACK is in
  use and little is in flight; `sack`: SACK is in use. -/
  | more (sack inject : Bool)
  /-- A retransmission timeout (src/ofp_tcp_timer.c:484-550). -/
  | timeout
  /-- The window is updated by the peer (src/ofp_tcp_input.c:2797-2812). -/
  | window (wnd : Nat)

def cwStep (s : Cw) : CwEv → Cw
  | .newAck w => { s with cwnd := if s.cwnd < s.wnd then s.wnd else s.cwnd, wnd := w }
  | .partialAck a w =>
    let c := (if s.cwnd > a then s.cwnd - a else 0) + s.maxseg
    { s with cwnd := if c < s.wnd then s.wnd else c, wnd := w }
  | .sackPartialAck r n w =>
    let c := r + n * s.maxseg
    let c := if c > s.ssthresh then s.ssthresh else c
    { s with cwnd := if c < s.wnd then s.wnd else c, wnd := w }
  | .third d l => { s with cwnd := s.ssthresh + s.maxseg * (d - l) }
  | .more sack inject =>
    if sack then
      if inject then { s with cwnd := if s.cwnd + s.maxseg > s.ssthresh then s.ssthresh else s.cwnd + s.maxseg } else s
    else { s with cwnd := s.cwnd + s.maxseg }
  | .timeout => s
  | .window w => { s with wnd := w }

def cwRun (s : Cw) (es : List CwEv) : Cw := es.foldl cwStep s

/-- What may be outstanding: `sendwin` of `ofp_tcp_output` (src/ofp_tcp_output.c:219). -/
def usable (s : Cw) : Nat := min s.wnd s.cwnd

/-- **C138, violated.**  A sender should reduce what it has outstanding when data is lost
(RFC 5681: to one segment after a timeout).  Here a timeout changes nothing, in any state. -/
theorem timeout_no_reduction_violated (s : Cw) (es : List CwEv) : usable (cwRun s (es ++ [.timeout])) = usable (cwRun s es) := by
  unfold cwRun
  rw [List.foldl_append]
  rfl

/-- **C138, violated.**  Nor does the third duplicate acknowledgement: on every connection, after
every history, it opens the congestion window beyond any window the peer can offer. -/
theorem dupack_no_reduction_violated (w0 m : Nat) (r : Bool) (es : List CwEv) (d l w : Nat) (hw : w ≤ maxWindow) :
    usable { cwStep (cwRun (cwFresh w0 m r) es) (.third d l) with wnd := w } = w := by
  have key : ∀ es : List CwEv, ∀ s : Cw, s.ssthresh = maxWindow → (cwRun s es).ssthresh = maxWindow := by
    intro es
    induction es with
    | nil => intro s h; exact h
    | cons e es ih =>
      intro s h
      refine ih (cwStep s e) ?_
      cases e with
      | more sack inject =>
        unfold cwStep
        cases sack <;> cases inject <;> exact h
      | _ => exact h
  have hk := key es (cwFresh w0 m r) rfl
  show min w ((cwRun (cwFresh w0 m r) es).ssthresh + _) = w
  rw [hk]
  omega

/-- **C138, violated.**  A new connection may send everything the peer's window allows at once
(no slow start), and this does not change with any acknowledgements and timeouts, as long as the
windows offered are possible ones. -/
theorem no_slow_start_violated (w0 m : Nat) (h0 : w0 ≤ maxWindow) (es : List CwEv)
    (hes : ∀ e ∈ es, match e with | .newAck w => w ≤ maxWindow | .window w => w ≤ maxWindow | .timeout => True | .third _ _ => True | _ => False) :
    usable (cwRun (cwFresh w0 m false) es) = (cwRun (cwFresh w0 m false) es).wnd := by
  have key : ∀ es : List CwEv, (∀ e ∈ es, match e with | .newAck w => w ≤ maxWindow | .window w => w ≤ maxWindow | .timeout => True | .third _ _ => True | _ => False) →
      ∀ s : Cw, s.ssthresh = maxWindow → maxWindow ≤ s.cwnd → s.wnd ≤ maxWindow →
      maxWindow ≤ (cwRun s es).cwnd ∧ (cwRun s es).wnd ≤ maxWindow := by
    intro es
    induction es with
    | nil => intro _ s _ h1 h2; exact ⟨h1, h2⟩
    | cons e es ih =>
      intro he s h h1 h2
      have h3 := he e List.mem_cons_self
      have h4 : ∀ e' ∈ es, _ := fun e' h' => he e' (List.mem_cons_of_mem _ h')
      cases e with
      | newAck w =>
        refine ih h4 (cwStep s (.newAck w)) h ?_ h3
        show maxWindow ≤ if s.cwnd < s.wnd then s.wnd else s.cwnd
        by_cases hc : s.cwnd < s.wnd
        · rw [if_pos hc]; omega
        · rw [if_neg hc]; exact h1
      | window w => exact ih h4 (cwStep s (.window w)) h h1 h3
      | timeout => exact ih h4 (cwStep s .timeout) h h1 h2
      | third d l =>
        refine ih h4 (cwStep s (.third d l)) h ?_ h2
        show maxWindow ≤ s.ssthresh + _
        omega
      | partialAck a w => cases h3
      | sackPartialAck r n w => cases h3
      | more a b => cases h3
  have := key es hes (cwFresh w0 m false) rfl (Nat.le_refl _) h0
  unfold usable
  omega

/-- A concrete history: ten timeouts in a row leave a window of 65535 bytes fully usable. -/
example : usable (cwRun (cwFresh 65535 1460 false) (List.replicate 10 .timeout)) = 65535 := by decide

end Verif.Rto
