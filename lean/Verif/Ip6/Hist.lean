import Verif.Ip6.Rx
/-! # Histories of the IPv6 path -/
namespace Verif.Ip6
open Verif Radix

theorem init_inv {nodes : Nat} (h : 1 ≤ nodes) : Inv nodes (init nodes) Spec.Table.empty :=
  ⟨Hist6.init h, (fun p i h => by cases h), (fun p q i h => by cases h), (fun i x h => by cases h)⟩

theorem cnt_free (j : Nat) (l : List (Nat × Pkt)) :
    cnt j (l.map (fun x => Ev.free x.1)) = l.countP (fun x => decide (x.1 = j)) := by
  unfold cnt
  rw [List.countP_map]
  congr 1
  funext x; simp [Ev.ends]

theorem delRoute_acct {nodes s T} (env : Env) (hi : Inv nodes s T) (dst : Addr) (hd : dst.length = 16) (len : Nat)
    (hl : len ≤ 128) :
    (delRoute env s dst len).next = s.next ∧
    (delRoute env s dst len).ents + waitingAll (delRoute env s dst len) = s.ents + waitingAll s ∧
    ∀ j, phi j (delRoute env s dst len) = phi j s := by
  obtain ⟨t, _, h⟩ := delRoute_cases env hi dst hd len hl
  rcases h with ⟨_, h⟩ | ⟨i, hT, h⟩
  · rw [h]; exact ⟨rfl, rfl, fun j => rfl⟩
  · rw [h]
    have hlt := hi.ids _ _ hT
    generalize hs1 : ({ s with tab := t } : St).setNh i { s.nh i with hold := [] } = s1
    have hW : ∀ w, W w s1 + hw w (s.nh i).hold = W w s := by
      intro w
      have := W_setNh w ({ s with tab := t } : St) i { s.nh i with hold := [] } hlt
      rw [hs1] at this
      have e : W w ({ s with tab := t } : St) = W w s := W_congr w s _ rfl rfl
      rw [e] at this
      simpa [hw] using this
    have b1 : s1.next = s.next := by subst hs1; rfl
    have b2 : s1.ents = s.ents := by subst hs1; rfl
    have b3 : s1.evs = s.evs := by subst hs1; rfl
    obtain ⟨f1, f2, f3, f4, f5, f6⟩ := freeHeld_frame (s.nh i).hold s1
    have fW : ∀ w, W w (freeHeld (s.nh i).hold s1) = W w s1 := fun w => W_congr w _ _ f3 f2
    refine ⟨f4.trans b1, ?_, ?_⟩
    · rw [f5, b2, waitingAll_eq, waitingAll_eq, fW, ← hW (fun _ => 1), hw_one]; omega
    · intro j
      unfold phi
      rw [f6, b3, waiting_eq, waiting_eq, fW, ← hW, hw_cnt]
      have : cnt j (s.evs ++ (s.nh i).hold.map (fun x => Ev.free x.1)) =
          cnt j s.evs + (s.nh i).hold.countP (fun x => decide (x.1 = j)) := by
        rw [← cnt_free]; unfold cnt; rw [List.countP_append]
      rw [this]; omega

/-- What holds after every step. -/
theorem step_all {nodes s T} (env : Env) (hi : Inv nodes s T) (op : Op) (hw : op.wf) :
    (∃ T', Inv nodes (step env s op) T') ∧ s.next ≤ (step env s op).next ∧
    (step env s op).ents + waitingAll (step env s op) = s.ents + waitingAll s ∧
    (∀ j, (step env s op).next ≤ j → phi j (step env s op) ≤ phi j s) ∧
    (op.pkt (fun p => ¬ isExt p) → Most s (step env s op) (fun _ => 0)) ∧
    (op.pkt (plain env) → Exact s (step env s op) (fun _ => 0)) := by
  cases op with
  | rx f =>
    obtain ⟨T', k, _, b, c, d⟩ := rx_full env hi f
    exact ⟨⟨T', k.inv⟩, k.next, k.ents, b, c, d⟩
  | send p =>
    obtain ⟨T', k, x⟩ := send_keep env hi p hw
    obtain ⟨_, _, _, b, c, d⟩ := Full.exact (m := True) (x := True) k x
    exact ⟨⟨T', k.inv⟩, k.next, k.ents, b, fun _ => c trivial, fun _ => d trivial⟩
  | addRoute dst len gw port vlan l =>
    obtain ⟨hd, hl⟩ := hw
    obtain ⟨f1, f2, f3, f4, _, _⟩ := addRoute_frame env hi dst hd len hl gw port vlan l
    have hp : ∀ j, phi j (addRoute env s dst len gw port vlan l) = phi j s := by
      intro j; unfold phi; rw [f2, waiting_eq, waiting_eq, f4]
    have hx : Exact s (addRoute env s dst len gw port vlan l) (fun _ => 0) := by
      intro j; rw [fresh_eq f1, hp]; rfl
    refine ⟨addRoute_inv env hi dst hd len hl gw port vlan l, Nat.le_of_eq f1.symm, ?_, fun j _ => Nat.le_of_eq (hp j),
      fun _ => hx.most, fun _ => hx⟩
    show (addRoute env s dst len gw port vlan l).ents + waitingAll (addRoute env s dst len gw port vlan l) = _
    rw [f3, waitingAll_eq, waitingAll_eq, f4]
  | delRoute dst len =>
    obtain ⟨hd, hl⟩ := hw
    obtain ⟨f1, f2, hp⟩ := delRoute_acct env hi dst hd len hl
    have hx : Exact s (delRoute env s dst len) (fun _ => 0) := by
      intro j; rw [fresh_eq f1, hp]; rfl
    exact ⟨⟨_, delRoute_inv env hi dst hd len hl⟩, Nat.le_of_eq f1.symm, f2, fun j _ => Nat.le_of_eq (hp j),
      fun _ => hx.most, fun _ => hx⟩

/-- What holds of every state that a history reaches. -/
theorem run_all {nodes : Nat} (env : Env) : ∀ (ops : List Op) (s : St) T, Inv nodes s T → (∀ op ∈ ops, op.wf) →
    (∀ j, s.next ≤ j → phi j s = 0) →
    (∃ T', Inv nodes (run env s ops) T') ∧ s.next ≤ (run env s ops).next ∧
    (run env s ops).ents + waitingAll (run env s ops) = s.ents + waitingAll s ∧
    (∀ j, (run env s ops).next ≤ j → phi j (run env s ops) = 0) ∧
    ((∀ op ∈ ops, op.pkt (fun p => ¬ isExt p)) → (∀ j, phi j s ≤ 1) → ∀ j, phi j (run env s ops) ≤ 1) ∧
    ((∀ op ∈ ops, op.pkt (plain env)) → (∀ j, j < s.next → phi j s = 1) →
      ∀ j, j < (run env s ops).next → phi j (run env s ops) = 1) := by
  intro ops
  induction ops with
  | nil => intro s T hi _ h0; exact ⟨⟨T, hi⟩, Nat.le_refl _, rfl, h0, fun _ h => h, fun _ h => h⟩
  | cons op ops ih =>
    intro s T hi hw h0
    obtain ⟨⟨T1, hi1⟩, hn, he, hz, hm, hx⟩ := step_all env hi op (hw op (List.mem_cons_self ..))
    obtain ⟨a, b, c, d, e, g⟩ := ih (step env s op) T1 hi1 (fun o ho => hw o (List.mem_cons_of_mem _ ho))
      (fun j hj => by have := hz j hj; have := h0 j (Nat.le_trans hn hj); omega)
    refine ⟨a, Nat.le_trans hn b, c.trans he, d, fun h1 h2 => ?_, fun h1 h2 => ?_⟩
    · apply e (fun o ho => h1 o (List.mem_cons_of_mem _ ho))
      intro j
      have h3 := hm (h1 op (List.mem_cons_self ..)) j
      by_cases hj : s.next ≤ j
      · rw [h0 j hj] at h3
        have : fresh s (step env s op) j ≤ 1 := by unfold fresh; split <;> omega
        dsimp only at h3; omega
      · have : fresh s (step env s op) j = 0 := by unfold fresh; rw [if_neg]; omega
        have := h2 j
        dsimp only at h3; omega
    · apply g (fun o ho => h1 o (List.mem_cons_of_mem _ ho))
      intro j hlt
      have h3 := hx (h1 op (List.mem_cons_self ..)) j
      by_cases hj : s.next ≤ j
      · rw [h0 j hj] at h3
        have : fresh s (step env s op) j = 1 := by unfold fresh; rw [if_pos ⟨hj, hlt⟩]
        dsimp only at h3; omega
      · have : fresh s (step env s op) j = 0 := by unfold fresh; rw [if_neg]; omega
        have := h2 j (by omega)
        dsimp only at h3; omega

theorem init_phi (nodes j) : phi j (init nodes) = 0 := rfl

/-- Every state a history reaches is described by a route table. -/
theorem reach_inv {nodes : Nat} (h : 1 ≤ nodes) (env : Env) (ops : List Op) (hw : ∀ op ∈ ops, op.wf) :
    ∃ T, Inv nodes (run env (init nodes) ops) T :=
  (run_all env ops (init nodes) _ (init_inv h) hw (fun j _ => init_phi nodes j)).1

/-- **C155 (partial: no extension headers behind the IPv6 header).** For every history of received frames, packets sent and
route changes, and every environment: every buffer is disposed of at most once (freed, sent, handed to the loopback
queue, a tunnel, a hook, a transport protocol or the slow path), and not while it waits for a neighbour. -/
theorem ip6_at_most_once_partial {nodes : Nat} (h : 1 ≤ nodes) (env : Env) (ops : List Op) (hw : ∀ op ∈ ops, op.wf)
    (hp : ∀ op ∈ ops, op.pkt (fun p => ¬ isExt p)) (j : Nat) :
    cnt j (run env (init nodes) ops).evs + waiting j (run env (init nodes) ops) ≤ 1 :=
  (run_all env ops (init nodes) _ (init_inv h) hw (fun j _ => init_phi nodes j)).2.2.2.2.1 hp
    (fun j => by rw [init_phi]; omega) j

/-- **C155 (partial: no extension headers, no echo messages, no ICMPv6 errors caused).** Every buffer received or
allocated is disposed of exactly once or waits at exactly one place: none is lost. -/
theorem ip6_exactly_once_partial {nodes : Nat} (h : 1 ≤ nodes) (env : Env) (ops : List Op) (hw : ∀ op ∈ ops, op.wf)
    (hp : ∀ op ∈ ops, op.pkt (plain env)) (j : Nat) (hj : j < (run env (init nodes) ops).next) :
    cnt j (run env (init nodes) ops).evs + waiting j (run env (init nodes) ops) = 1 :=
  (run_all env ops (init nodes) _ (init_inv h) hw (fun j _ => init_phi nodes j)).2.2.2.2.2 hp
    (fun j hj => by simp [init] at hj) j hj

/-- **C156.** The 2048 records for waiting packets are never lost: in every history as many are free as do not hold a
packet. -/
theorem ip6_records_conserved {nodes : Nat} (h : 1 ≤ nodes) (env : Env) (ops : List Op) (hw : ∀ op ∈ ops, op.wf) :
    (run env (init nodes) ops).ents + waitingAll (run env (init nodes) ops) = 2048 :=
  (run_all env ops (init nodes) _ (init_inv h) hw (fun j _ => init_phi nodes j)).2.2.1

/-- **C156.** In every history, a packet waits only at a route that is still in the table and matches its destination. -/
theorem ip6_waits_at_route {nodes : Nat} (h : 1 ≤ nodes) (env : Env) (ops : List Op) (hw : ∀ op ∈ ops, op.wf) :
    ∃ T, Hist6 nodes (run env (init nodes) ops).tab T ∧
      ∀ i id p, (id, p) ∈ ((run env (init nodes) ops).nh i).hold →
        ∃ q, T q = some i ∧ q <+: Spec.bits6 p.dst := by
  obtain ⟨T, hi⟩ := reach_inv h env ops hw
  exact ⟨T, hi.hist, fun i id p hx => (hi.fits i (id, p) hx).2⟩

/-- **C156.** Deleting a route frees the packets that wait at it, each once, and nothing else. -/
theorem ip6_delete_frees {nodes s T} (env : Env) (hi : Inv nodes s T) (dst : Addr) (hd : dst.length = 16) (len : Nat)
    (hl : len ≤ 128) :
    (delRoute env s dst len).evs = s.evs ++
      (match T (pfx6 dst len) with
       | some i => (s.nh i).hold.map (fun x => Ev.free x.1)
       | none => []) ∧
    ∀ k, ((delRoute env s dst len).nh k).hold = if T (pfx6 dst len) = some k then [] else (s.nh k).hold := by
  obtain ⟨t, _, h⟩ := delRoute_cases env hi dst hd len hl
  rcases h with ⟨hT, h⟩ | ⟨i, hT, h⟩
  · rw [h, hT]; exact ⟨by simp, fun k => by simp⟩
  · obtain ⟨f1, f2, f3, f4, f5, f6⟩ := freeHeld_frame (s.nh i).hold (({ s with tab := t } : St).setNh i { s.nh i with hold := [] })
    rw [h, hT]
    refine ⟨f6, fun k => ?_⟩
    rw [f3]
    by_cases e : k = i
    · subst e; simp
    · rw [setNh_other _ _ _ _ e, if_neg]
      intro h'; cases h'; exact e rfl

/-- What the packets that wait need to be sent: the output hook passes them on, they fit, and they are not for the
interface's own address. -/
def Sendable (env : Env) (d id : Nat) (p : Pkt) : Prop :=
  env.hookOut p = .cont ∧ env.roomOk id = true ∧ (env.dev d).addr ≠ p.dst

theorem output_known {s : St} (env : Env) {i d : Nat} {mac : Mac} (id : Nat) (p : Pkt) (nh : Option Nat)
    (hpick : pick env p nh s = some i)
    (hd : env.ifnet (s.nh i).port (s.nh i).vlan = some d) (hk : (env.dev d).kind = .ether) (hm : (s.nh i).mac = mac)
    (h0 : mac ≠ noMac) (hs : Sendable env d id p) :
    ip6Output env id p nh s = (.processed, s.emit (.tx id d mac p)) := by
  obtain ⟨h1, h2, h3⟩ := hs
  subst hm
  unfold ip6Output
  rw [h1, hpick]
  dsimp only
  rw [hd]
  dsimp only
  unfold outDev
  simp [hk, h2, h3, h0]

theorem sendHeld_sent (env : Env) {i d : Nat} {mac : Mac} (hk : (env.dev d).kind = .ether) (h0 : mac ≠ noMac) :
    ∀ (l : List (Nat × Pkt)) (s : St), env.ifnet (s.nh i).port (s.nh i).vlan = some d → (s.nh i).mac = mac →
    (∀ x ∈ l, Sendable env d x.1 x.2) →
    (sendHeld env i l s).evs = s.evs ++ l.map (fun x => Ev.tx x.1 d mac x.2) ∧ (sendHeld env i l s).nh = s.nh ∧
      (sendHeld env i l s).tab = s.tab := by
  intro l
  induction l with
  | nil => intro s _ _ _; exact ⟨by simp [sendHeld], rfl, rfl⟩
  | cons x l ih =>
    intro s hd hm hl
    obtain ⟨id, p⟩ := x
    unfold sendHeld
    rw [output_known env id p (some i) rfl hd hk hm h0 (hl (id, p) (List.mem_cons_self ..))]
    simp only [reduceCtorEq, if_false]
    obtain ⟨e1, e2, e3⟩ := ih { s.emit (.tx id d mac p) with ents := s.ents + 1 } hd hm
      (fun y hy => hl y (List.mem_cons_of_mem _ hy))
    refine ⟨?_, e2, e3⟩
    rw [show (s.emit (.tx id d mac p)).ents + 1 = s.ents + 1 from rfl, e1]; simp

/-- **C156.** When the Ethernet address of a next hop becomes known, all packets that wait there are sent to it, each once,
unchanged, in the order in which they were queued. -/
theorem ip6_waiting_sent_in_order {nodes s T} (env : Env) (_hi : Inv nodes s T) (a : Addr) (mac : Mac) (i d : Nat)
    (hl : look env s a = some i) (hd : env.ifnet (s.nh i).port (s.nh i).vlan = some d) (hk : (env.dev d).kind = .ether)
    (h0 : mac ≠ noMac) (hs : ∀ x ∈ (s.nh i).hold, Sendable env d x.1 x.2) :
    (addMac env a mac s).evs = s.evs ++ (s.nh i).hold.reverse.map (fun x => Ev.tx x.1 d mac x.2) ∧
      ((addMac env a mac s).nh i).hold = [] ∧ ((addMac env a mac s).nh i).mac = mac ∧
      ∀ k, k ≠ i → (addMac env a mac s).nh k = s.nh k := by
  unfold addMac
  rw [hl]
  dsimp only
  obtain ⟨e1, e2, e3⟩ := sendHeld_sent env hk h0 (s.nh i).hold.reverse (s.setNh i { s.nh i with mac := mac, hold := [] })
    (by rw [setNh_same]; exact hd) (by rw [setNh_same]) (fun x hx => hs x (List.mem_reverse.1 hx))
  refine ⟨e1, ?_, ?_, fun k hk => ?_⟩
  · rw [e2, setNh_same]
  · rw [e2, setNh_same]
  · rw [e2, setNh_other _ _ _ _ hk]

/-- **C156.** A packet that has to wait is queued behind those that wait already at the route that is used for it. -/
theorem ip6_wait_appends {s : St} (env : Env) (id : Nat) (p : Pkt) (i : Nat)
    (hl : look env s p.dst = some i) (he : 0 < s.ents) :
    (savePkt env id p s).1 = .processed ∧
    ((savePkt env id p s).2.nh i).hold.reverse = (s.nh i).hold.reverse ++ [(id, p)] := by
  unfold savePkt
  rw [hl]
  dsimp only
  rw [if_neg (by omega)]
  refine ⟨rfl, ?_⟩
  simp

end Verif.Ip6
