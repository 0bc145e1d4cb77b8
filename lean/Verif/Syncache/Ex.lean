import Verif.Syncache.Stay
/-! # Half-open connections: concrete cases meeting the hypotheses -/
namespace Verif.Syncache

/-- A configuration; the hash is a stand-in. -/
def exCfg (ck only : Bool) : Cfg :=
  ⟨4, ck, only, true, true, 262144, 216, fun l i => BitVec.ofNat 32 (l.foldl (fun a b => a * 33 + b + 1) (i + 5381)), fun i => [i.fa % 256, i.la % 256, i.fp % 256, i.lp % 256]⟩

/-- A SYN with MSS 1400, window scale 3, timestamps and SACK. -/
def exSyn : SynIn := ⟨⟨0x0a000001, 0x0a000002, 40000, 80, 0⟩, 1000, ⟨some 1400, some 3, some (77, 0), true⟩, true, 65536, false, 1460, 5, 99, List.range 32, true⟩

/-- The ACK of the SYN|ACK, in an honest run. -/
def exAck (p : SynAck) : AckIn := ⟨p.inc, p.seq + 1, p.ack, ⟨none, none, p.ts.map fun q => (q.2 + 1, q.1), false⟩, 65536, true, 6, 120⟩

/-- The last SYN|ACK of a run. -/
def runOut (cfg : Cfg) (s : S) : List Ev → List Out
  | [] => []
  | e :: l => (step cfg s e).1 :: runOut cfg (step cfg s e).2 l

/-- The state after a run. -/
def runSt (cfg : Cfg) (s : S) : List Ev → S
  | [] => s
  | e :: l => runSt cfg (step cfg s e).2 l

theorem runHist {cfg : Cfg} {l : Log} {s : S} (h : Hist cfg l s) (es : List Ev) : ∃ l', Hist cfg l' (runSt cfg s es) := by
  induction es generalizing l s with
  | nil => exact ⟨l, h⟩
  | cons e es ih => exact ih (.cons e h)

/-- What the SYN|ACK of an honest run says, with and without cookies. -/
def exSA (ck only : Bool) : Option SynAck :=
  match runOut (exCfg ck only) (init (exCfg ck only)) [.syn exSyn, .send 0 1460 true] with
  | [_, .synack p] => some p
  | _ => none

/-- The connection of an honest run; `strip`: the ACK has no timestamp. -/
def exConn (ck only strip : Bool) : Option (SynAck × Conn) :=
  match exSA ck only with
  | some p =>
    match runOut (exCfg ck only) (init (exCfg ck only)) [.syn exSyn, .send 0 1460 true, .ack (if strip then { exAck p with o := ⟨none, none, none, false⟩ } else exAck p)] with
    | [_, .synack q, .conn c] => some (q, c)
    | _ => none
  | none => none

/-- An honest handshake through the cache opens a connection with the agreed options (`conn_needs_answer_partial`, `options_agree`). -/
example : (exConn false false false).map (fun r => (r.2.irs, r.2.scale, r.2.sack, r.2.ts.isSome, r.2.peerMss)) = some (1000, some (3, 3), true, true, 1400) := by decide +kernel

/-- And through a cookie, nothing being kept (`cookie_honoured_partial`, both with and without the timestamp; `lost_scale_violated`). -/
example : (exConn true true false).map (fun r => (r.2.irs, r.2.scale, r.2.sack, r.2.ts.isSome, r.2.peerMss)) = some (1000, some (3, 3), true, true, 996) := by decide +kernel

example : (exConn true true true).map (fun r => (r.1.scale, r.2.scale)) = some (some 3, none) := by decide +kernel

/-- The entry of the SYN is in the cache, in its bucket (`entry_stays_partial`, `cache_in_order`). -/
example : ((runSt (exCfg true false) (init (exCfg true false)) [.syn exSyn, .send 0 1460 true]).b (bucketOf exSyn.inc)).list.map Sc.inc = [exSyn.inc] ∧
    (lookup ((runSt (exCfg true false) (init (exCfg true false)) [.syn exSyn, .send 0 1460 true]).b (bucketOf exSyn.inc)) exSyn.inc).isSome = true := by decide +kernel

/-- A reset in the window removes it, one outside does not. -/
example : ((runSt (exCfg true false) (init (exCfg true false)) [.syn exSyn, .send 0 1460 true, .rst exSyn.inc 1001 false]).b (bucketOf exSyn.inc)).list = [] ∧
    ((runSt (exCfg true false) (init (exCfg true false)) [.syn exSyn, .send 0 1460 true, .rst exSyn.inc 999 false]).b (bucketOf exSyn.inc)).list ≠ [] := by decide +kernel

/-- A run as `one_entry_partial` asks for, with two connections of one bucket. -/
example : ∃ s, Calm (exCfg true false) s ∧ (s.b (bucketOf exSyn.inc)).list.length = 2 :=
  ⟨_, .cons (.send 0 1460 true) (.cons (.syn { exSyn with inc := { exSyn.inc with la := 0x0a000003 } }) (.cons (.send 0 1460 true) (.cons (.syn exSyn) .nil (fun x _ f hf => by cases hf))
      (fun x h => by cases h)) (fun x _ f hf => (by
        have e : (step (exCfg true false) (step (exCfg true false) (init (exCfg true false)) (.syn exSyn)).2 (.send 0 1460 true)).2.flight = [] := by decide +kernel
        rw [e] at hf; cases hf))) (fun x h => by cases h),
    by decide +kernel⟩

/-- Hypotheses of the violations. -/
example : ∃ y : SynIn, bucketOf y.inc = bucketOf exSyn.inc ∧ exSyn.now + 16 < y.now := ⟨{ exSyn with now := 100000 }, rfl, by decide⟩

end Verif.Syncache
