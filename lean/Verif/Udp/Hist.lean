import Verif.Udp.Conserve
/-! # Histories of datagram sockets

Any number of sockets, calls and packets in any order.  The history records, beside the state of the stack, what was fed
in and what the application got. -/
namespace Verif.Udp

/-- `ofp_close` on a datagram socket: `udp_close` and `udp_detach` (src/ofp_udp_usrreq.c:1304-1369) take the block from
the table, `sofree_dispose` (src/ofp_uipc_socket.c:609-643) frees what is in the receive buffer
(`sbflush_internal`, src/ofp_uipc_sockbuf.c:215-223). -/
def close (s : St) (i : Nat) : St :=
  { s with
    tab := Pcb.free s.tab i
    sk := Pcb.upd s.sk i { s.sk i with rcv := [] }
    freed := s.freed ++ (s.sk i).rcv.map Buf.id }

/-- The calls that change the table of a datagram protocol (the others are of stream sockets or IPv6). -/
def Datagram : Pcb.Label → Prop
  | .socket _ | .setopt _ _ | .bind _ _ _ | .udpConnect _ _ _ _ | .sendto _ _ _ _ | .disconnect _ => True
  | _ => False

inductive Act where
  | call (l : Pcb.Label)
  /-- an option or an event callback is set -/
  | option (i : Nat) (vrf minttl : Nat) (mopt : Option (Nat → Nat → Nat → Bool)) (takes : Nat → Bool)
  /-- a packet comes in -/
  | packet (e : Env) (b : Buf)
  | recv (i n : Nat)
  | close (i : Nat)

/-- State with history. -/
structure World where
  s : St
  /-- packets that came in: the state they met, and the packet -/
  fed : List (Env × St × Buf)
  /-- buffers the stack took over or made -/
  given : List Nat
  /-- what `ofp_recvfrom` returned to each socket, with the size of the buffer offered -/
  got : Nat → List (Nat × Got)

def World.init : World :=
  ⟨⟨Pcb.Tab.empty, fun _ => ⟨0, 0, none, fun _ => false, []⟩, [], [], 0⟩, [], [], fun _ => []⟩

/-- A packet arrives in the next free buffer. -/
def packet (e : Env) (w : World) (b : Buf) : World :=
  let b1 := { b with id := w.s.next }
  let s1 := { w.s with next := w.s.next + 1 }
  let r := input e s1 b1
  { w with
    s := r.2
    fed := w.fed ++ [(e, w.s, b1)]
    given := w.given ++ (if r.1 = .processed then [w.s.next] else []) ++
      (List.range' s1.next (r.2.next - s1.next)).filter e.copyOk }

def step (c : Pcb.Cfg) (w : World) : Act → World
  | .call l => { w with s := { w.s with tab := Pcb.step c w.s.tab l } }
  | .option i vrf minttl mopt takes =>
    { w with s := { w.s with sk := Pcb.upd w.s.sk i ⟨vrf, minttl, mopt, takes, (w.s.sk i).rcv⟩ } }
  | .packet e b => packet e w b
  | .recv i n =>
    let r := recvfrom w.s i n
    { w with
      s := r.2
      got := match r.1 with
        | none => w.got
        | some g => Pcb.upd w.got i (w.got i ++ [(n, g)]) }
  | .close i => { w with s := close w.s i }

/-- Calls are those of datagram sockets, on sockets that exist; the table is hashed as configured. -/
def Ok (c : Pcb.Cfg) (w : World) : Act → Prop
  | .call l => Datagram l ∧ l.Ok
  | .option i _ _ _ _ => i < w.s.tab.next
  | .packet e _ => e.cfg = c
  | .recv i _ => i < w.s.tab.next
  | .close i => i < w.s.tab.next

inductive Reach (c : Pcb.Cfg) : World → Prop
  | init : Reach c World.init
  | step (w : World) (a : Act) : Reach c w → Ok c w a → Reach c (step c w a)

/-! ## The number of sockets never shrinks -/

theorem inshash_next {c : Pcb.Cfg} {e : Pcb.Env} {t u : Pcb.Tab} {i : Nat} {p : Pcb.Pcb}
    (h : Pcb.inshash c e t i p = some u) : u.next = t.next := by
  unfold Pcb.inshash at h
  simp only [Option.map_eq_some_iff] at h
  obtain ⟨hs, _, rfl⟩ := h
  rfl

theorem setLast_next (t : Pcb.Tab) (r : Pcb.Range) (v : Nat) : (t.setLast r v).next = t.next := by
  cases r <;> rfl

theorem pcbLport_next (c : Pcb.Cfg) (e : Pcb.Env) (t : Pcb.Tab) (o : Pcb.Opts) (a : Nat) (w : Bool) :
    (Pcb.pcbLport c e t o a w).2.next = t.next := by
  unfold Pcb.pcbLport
  simp only
  split <;> exact setLast_next _ _ _

theorem bindSetup_next (c : Pcb.Cfg) (e : Pcb.Env) (t : Pcb.Tab) (o : Pcb.Opts) (nam : Option (Nat × Nat)) (a : Nat) :
    (Pcb.bindSetup c e t o nam a).2.next = t.next := by
  unfold Pcb.bindSetup
  simp only
  repeat' split
  all_goals first | rfl | exact pcbLport_next _ _ _ _ _ _

theorem connectSetup_next (c : Pcb.Cfg) (e : Pcb.Env) (t : Pcb.Tab) (o : Pcb.Opts) (a b d f : Nat) :
    (Pcb.connectSetup c e t o a b d f).2.next = t.next := by
  unfold Pcb.connectSetup
  simp only
  repeat' split
  all_goals first | rfl | exact bindSetup_next _ _ _ _ _ _

theorem step_next (c : Pcb.Cfg) (t : Pcb.Tab) (l : Pcb.Label) (h : Datagram l) : t.next ≤ (Pcb.step c t l).next := by
  cases l with
  | socket o => exact Nat.le_succ _
  | setopt i o =>
    show _ ≤ (Pcb.setopt t i o).next
    unfold Pcb.setopt
    split <;> exact Nat.le_refl _
  | bind e i nam =>
    show _ ≤ (Pcb.apiBind c e t i nam).2.next
    unfold Pcb.apiBind Pcb.pcbbind
    have := bindSetup_next c e t
    simp only
    repeat' split
    all_goals first
      | exact Nat.le_refl _
      | exact Nat.le_of_eq (this _ _ _).symm
      | (rename_i h; exact Nat.le_of_eq ((inshash_next h).trans (this _ _ _)).symm)
      | (rename_i h _; exact Nat.le_of_eq ((inshash_next h).trans (this _ _ _)).symm)
  | udpConnect e i d n =>
    show _ ≤ (Pcb.udpConnect c e t i d n).2.next
    unfold Pcb.udpConnect Pcb.pcbconnect
    have := connectSetup_next c e t
    simp only
    repeat' split
    all_goals first
      | exact Nat.le_refl _
      | exact Nat.le_of_eq (this _ _ _ _ _).symm
      | (rename_i h; exact Nat.le_of_eq ((inshash_next h).trans (this _ _ _ _ _)).symm)
  | sendto e i d n =>
    show _ ≤ (Pcb.sendto c e t i d n).2.next
    unfold Pcb.sendto
    have := connectSetup_next c e t
    simp only
    repeat' split
    all_goals first
      | exact Nat.le_refl _
      | exact Nat.le_of_eq (this _ _ _ _ _).symm
      | (rename_i h; exact Nat.le_of_eq ((inshash_next h).trans (this _ _ _ _ _)).symm)
  | disconnect i =>
    show _ ≤ (Pcb.disconnect c t i).2.next
    unfold Pcb.disconnect
    repeat' split
    all_goals exact Nat.le_refl _
  | tcpConnect | drop | free | timewait | accept | bind6 => exact absurd h (by simp [Datagram])

/-! ## Buffers -/

theorem sum_more (f : Nat → Nat) (n m : Nat) (h : n ≤ m) (hz : ∀ i, n ≤ i → f i = 0) :
    ((List.range m).map f).sum = ((List.range n).map f).sum := by
  obtain ⟨k, rfl⟩ := Nat.exists_eq_add_of_le h
  clear h
  induction k with
  | zero => rfl
  | succ k ih =>
    rw [← Nat.add_assoc, List.range_succ, List.map_append, List.sum_append, ih]
    simp [hz (n + k) (by omega)]

/-- What holds in every history. -/
structure WInv (c : Pcb.Cfg) (w : World) : Prop where
  tab : Pcb.Reach c w.s.tab
  empty : ∀ i, w.s.tab.next ≤ i → (w.s.sk i).rcv = []
  lt : ∀ x ∈ w.given, x < w.s.next
  nodup : w.given.Nodup
  held : ∀ x, held w.s x = w.given.count x

theorem lookup_lt {c : Pcb.Cfg} (hc : Pcb.CfgOk c) {t : Pcb.Tab} (h : Pcb.Reach c t) {a b d f i : Nat}
    (hl : Pcb.lookupHash c t a b d f true = some i) : i < t.next := by
  have := Pcb.delivery_exact hc h a b d f
  rw [hl] at this
  obtain ⟨p, k, hb, _⟩ := this
  exact (h.inv hc).ti.lt hb.1

theorem input_tab (e : Env) (s : St) (b : Buf) : (input e s b).2.tab = s.tab := by
  have hdel : ∀ (t : St) k q, (deliver t k q).tab = t.tab := fun t k q => (deliver_like t k q).tab
  have hml : ∀ sa l last (t : St), (multiLoop e.copyOk b sa l last t).2.tab = t.tab := by
    intro sa l
    induction l with
    | nil => intro last t; rfl
    | cons i r ih =>
      intro last t
      unfold multiLoop
      repeat' split
      all_goals first
        | exact ih _ _
        | rfl
        | exact (ih _ _).trans (appendCopy_like _ _ _ _ _).tab
        | exact (appendCopy_like _ _ _ _ _).tab
  unfold input append
  simp only
  repeat' split
  all_goals first
    | rfl
    | exact hml _ _ _ _
    | exact (hdel _ _ _).trans (hml _ _ _ _)
    | exact hdel _ _ _

theorem free_next (t : Pcb.Tab) (i : Nat) : (Pcb.free t i).next = t.next := by
  unfold Pcb.free
  split
  · rfl
  · simp only
    split <;> rfl

theorem packet_count (l : List Nat) (x a m : Nat) (f : Nat → Bool) (P : Prop) [Decidable P] :
    (l ++ (if P then [a] else []) ++ (List.range' (a + 1) (m - (a + 1))).filter f).count x =
      l.count x + (if P ∧ a = x then 1 else 0) + (if a + 1 ≤ x ∧ x < m ∧ f x = true then 1 else 0) := by
  rw [List.count_append, List.count_append]
  have h1 : (if P then [a] else []).count x = if P ∧ a = x then 1 else 0 := by
    by_cases hp : P
    · rw [if_pos hp, count_single]; simp [hp]
    · rw [if_neg hp]; simp [hp]
  rw [h1]
  congr 1
  have hnd : ((List.range' (a + 1) (m - (a + 1))).filter f).Nodup := List.Nodup.filter _ List.nodup_range'
  by_cases hx : a + 1 ≤ x ∧ x < m ∧ f x = true
  · rw [if_pos hx, List.count_eq_one_of_mem hnd (List.mem_filter.2 ⟨by simp [List.mem_range'_1]; omega, hx.2.2⟩)]
  · rw [if_neg hx, List.count_eq_zero]
    intro hm
    obtain ⟨h2, h3⟩ := List.mem_filter.1 hm
    rw [List.mem_range'_1] at h2
    exact hx ⟨by omega, by omega, h3⟩

theorem packet_winv {c : Pcb.Cfg} (hc : Pcb.CfgOk c) {w : World} (h : WInv c w) (e : Env) (b : Buf) (he : e.cfg = c) :
    WInv c (packet e w b) := by
  have hin : ∀ i, Pcb.lookupHash e.cfg ({ w.s with next := w.s.next + 1 } : St).tab
      ({ b with id := w.s.next } : Buf).src ({ b with id := w.s.next } : Buf).sport ({ b with id := w.s.next } : Buf).dst
      ({ b with id := w.s.next } : Buf).dport true = some i → i < ({ w.s with next := w.s.next + 1 } : St).tab.next := by
    intro i hi
    rw [he] at hi
    exact lookup_lt hc h.tab hi
  have hcv := fun x => input_conserves e { w.s with next := w.s.next + 1 } { b with id := w.s.next } hin x
  have htab := input_tab e { w.s with next := w.s.next + 1 } { b with id := w.s.next }
  have hsafe := fun j => input_safe e { w.s with next := w.s.next + 1 } { b with id := w.s.next } j
  have hg : (packet e w b).given = w.given ++ (if (input e { w.s with next := w.s.next + 1 } { b with id := w.s.next }).1 =
      .processed then [w.s.next] else []) ++ (List.range' (w.s.next + 1) ((input e { w.s with next := w.s.next + 1 }
      { b with id := w.s.next }).2.next - (w.s.next + 1))).filter e.copyOk := rfl
  have hs : (packet e w b).s = (input e { w.s with next := w.s.next + 1 } { b with id := w.s.next }).2 := rfl
  generalize hrr : input e { w.s with next := w.s.next + 1 } { b with id := w.s.next } = r at *
  have hle : w.s.next + 1 ≤ r.2.next := (hcv 0).1
  have hcount : ∀ x, (packet e w b).given.count x ≤ 1 := by
    intro x
    rw [hg, packet_count]
    have h0 : w.given.count x ≤ 1 := List.nodup_iff_count.1 h.nodup x
    have h1 : w.s.next ≤ x → w.given.count x = 0 := fun hx => List.count_eq_zero.2 (fun hm => by have := h.lt x hm; omega)
    by_cases hx : w.s.next ≤ x
    · rw [h1 hx]
      by_cases h2 : w.s.next = x
      · rw [if_neg (show ¬ (w.s.next + 1 ≤ x ∧ _) by omega)]
        split <;> omega
      · rw [if_neg (fun g => h2 g.2)]
        split <;> omega
    · rw [if_neg (by omega), if_neg (by omega)]
      omega
  constructor
  · rw [hs, htab]; exact h.tab
  · intro i hi
    rw [hs, htab] at hi
    rw [hs]
    rcases (hsafe i).2 with hq | ⟨_, _, _, hq⟩
    · rw [hq]; exact h.empty i hi
    · exfalso
      split at hq
      · obtain ⟨p, hp, _⟩ := hq
        have := (h.tab.inv hc).ti.lt hp
        have hi' : w.s.tab.next ≤ i := hi
        omega
      · have := hin i hq
        have hi' : w.s.tab.next ≤ i := hi
        have : i < w.s.tab.next := this
        omega
  · intro x hx
    rw [hs]
    rw [hg] at hx
    rcases List.mem_append.1 hx with hx | hx
    · rcases List.mem_append.1 hx with hx | hx
      · have := h.lt x hx; omega
      · split at hx
        · rw [List.mem_singleton.1 hx]; omega
        · cases hx
    · have := (List.mem_filter.1 hx).1
      rw [List.mem_range'_1] at this
      omega
  · exact List.nodup_iff_count.2 hcount
  · intro x
    rw [hg, packet_count, hs, (hcv x).2]
    have : held ({ w.s with next := w.s.next + 1 } : St) x = held w.s x := rfl
    rw [this, h.held x]

theorem step_winv {c : Pcb.Cfg} (hc : Pcb.CfgOk c) {w : World} (h : WInv c w) (a : Act) (ha : Ok c w a) :
    WInv c (step c w a) := by
  cases a with
  | call l =>
    have hn := step_next c w.s.tab l ha.1
    refine ⟨.step _ l h.tab ha.2, fun i hi => h.empty i (Nat.le_trans hn hi), h.lt, h.nodup, fun x => ?_⟩
    have := h.held x
    unfold held at this ⊢
    show ((List.range (Pcb.step c w.s.tab l).next).map _).sum + _ + _ = _
    rw [sum_more _ _ _ hn (fun i hi => by
      show (((w.s.sk i).rcv).map Buf.id).count x = 0
      rw [h.empty i hi]; rfl)]
    exact this
  | option i vrf minttl mopt takes =>
    have hrcv : ∀ j, ((Pcb.upd w.s.sk i ⟨vrf, minttl, mopt, takes, (w.s.sk i).rcv⟩) j).rcv = (w.s.sk j).rcv := by
      intro j
      unfold Pcb.upd
      by_cases hj : j = i
      · rw [if_pos hj, hj]
      · rw [if_neg hj]
    refine ⟨h.tab, fun j hj => (hrcv j).trans (h.empty j hj), h.lt, h.nodup, fun x => ?_⟩
    refine Eq.trans ?_ (h.held x)
    unfold held
    show ((List.range w.s.tab.next).map fun j => (((Pcb.upd w.s.sk i _ j).rcv).map Buf.id).count x).sum + _ + _ = _
    simp only [hrcv]
    rfl
  | packet e b => exact packet_winv hc h e b ha
  | recv i n =>
    have htab : (recvfrom w.s i n).2.tab = w.s.tab := by unfold recvfrom; split <;> rfl
    have hnx : (recvfrom w.s i n).2.next = w.s.next := by unfold recvfrom; split <;> rfl
    refine ⟨?_, ?_, ?_, h.nodup, ?_⟩
    · show Pcb.Reach c (recvfrom w.s i n).2.tab
      rw [htab]; exact h.tab
    · intro j hj
      have hj' : w.s.tab.next ≤ j := by rw [← htab]; exact hj
      show ((recvfrom w.s i n).2.sk j).rcv = []
      have hne : j ≠ i := by have : i < w.s.tab.next := ha; omega
      unfold recvfrom
      split
      · exact h.empty j hj'
      · show (Pcb.upd w.s.sk i _ j).rcv = []
        rw [Pcb.upd_ne _ _ hne]; exact h.empty j hj'
    · intro x hx
      show x < (recvfrom w.s i n).2.next
      rw [hnx]; exact h.lt x hx
    · intro x
      exact (recvfrom_conserves w.s i n ha x).trans (h.held x)
  | close i =>
    have hi : i < w.s.tab.next := ha
    refine ⟨.step _ (.free i) h.tab trivial, ?_, h.lt, h.nodup, ?_⟩
    · intro j hj
      have hj' : w.s.tab.next ≤ j := by rw [← free_next w.s.tab i]; exact hj
      show (Pcb.upd w.s.sk i _ j).rcv = []
      rw [Pcb.upd_ne _ _ (by omega)]; exact h.empty j hj'
    · intro x
      rw [show (step c w (.close i)).given = w.given from rfl, ← h.held x]
      show held (close w.s i) x = held w.s x
      unfold held close
      simp only [free_next, List.count_append]
      have := sum_upd (fun k => (k.rcv.map Buf.id).count x) w.s.sk i { w.s.sk i with rcv := [] } w.s.tab.next
      simp only [if_pos hi, List.map_nil, List.count_nil] at this
      omega

theorem Reach.winv {c : Pcb.Cfg} (hc : Pcb.CfgOk c) {w : World} (h : Reach c w) : WInv c w := by
  induction h with
  | init => exact ⟨.empty, fun _ _ => rfl, fun x hx => (by cases hx), List.nodup_nil, fun x => rfl⟩
  | step w a _ ha ih => exact step_winv hc ih a ha

/-- **C118.**  In every history every buffer the sockets took over (or copied) is in exactly one place - one receive
buffer, one event callback, or back in its pool - and they hold no other. -/
theorem buffer_history {c : Pcb.Cfg} (hc : Pcb.CfgOk c) {w : World} (h : Reach c w) (x : Nat) :
    held w.s x = if x ∈ w.given then 1 else 0 := by
  have hi := h.winv hc
  rw [hi.held x]
  by_cases hx : x ∈ w.given
  · rw [if_pos hx]; exact List.count_eq_one_of_mem hi.nodup hx
  · rw [if_neg hx]; exact List.count_eq_zero.2 hx

/-! ## What the application reads -/

theorem rejects_false {al : Nat → Bool × Bool} {b : Buf} (h : rejects al b = false) : SumOk al b := by
  unfold rejects at h
  unfold SumOk
  by_cases hu : b.usum = 0
  · exact .inl hu
  right
  have hu' : (b.usum != 0) = true := by simp [hu]
  rw [hu', Bool.true_and] at h
  have hs : sumBad al b = false → Cksum.in4Cksum al [b.l2 ++ b.l3] b.l2.length = .ok 0 := by
    intro g; unfold sumBad at g; simpa using g
  cases hh : b.hw with
  | ok => exact .inl rfl
  | bad => rw [hh] at h; cases h
  | none => rw [hh] at h; exact .inr ⟨(by simp), hs h⟩
  | unknown => rw [hh] at h; exact .inr ⟨(by simp), hs h⟩

/-- A packet without its buffer number. -/
def bare (b : Buf) : Buf := { b with id := 0 }

def stored (p : Env × St × Buf) : Buf := bare (p.2.2.save (sockaddr p.2.2.src p.2.2.sport))

theorem copy_bare {b q : Buf} {sa : List UInt8} (h : Copy b sa q) : bare q = bare (b.save sa) := by
  obtain ⟨x, rfl⟩ := h
  rfl

/-- The packets a socket was given: those it has read (with the size it asked for), then those in its buffer. -/
def RInv (w : World) (j : Nat) : Prop :=
  ∃ (l1 : List (Nat × (Env × St × Buf))) (l2 : List (Env × St × Buf)),
    (l1.map Prod.snd ++ l2).Sublist w.fed ∧
    (∀ p ∈ l1.map Prod.snd ++ l2, Accepted p.1 p.2.2 ∧ Addressed p.2.1 p.2.2 j) ∧
    w.got j = l1.map (fun x => (x.1, x.2.2.2.answer x.1)) ∧
    (w.s.sk j).rcv.map bare = l2.map stored

theorem recv_whole (s : St) (i n : Nat) (b q0 : Buf) (q : List Buf) (hw : Whole b)
    (hb : bare q0 = bare (b.save (sockaddr b.src b.sport))) (hq : (s.sk i).rcv = q0 :: q) :
    (recvfrom s i n).1 = some (b.answer n) ∧ ((recvfrom s i n).2.sk i).rcv = q ∧
      ∀ j, j ≠ i → (recvfrom s i n).2.sk j = s.sk j := by
  have e : q0 = Buf.save { b with id := q0.id } (sockaddr b.src b.sport) := by
    cases q0
    unfold bare Buf.save at hb
    unfold Buf.save
    simp only [Buf.mk.injEq] at hb ⊢
    exact ⟨trivial, hb.2⟩
  have hw' : Whole { b with id := q0.id } := ⟨hw.ihl, hw.parser, hw.hdr, hw.len⟩
  refine ⟨(recvfrom_exact s i n { b with id := q0.id } q hw' (by rw [hq]; exact congrArg (· :: q) e)).1, ?_, ?_⟩
  · unfold recvfrom
    rw [hq]
    show (Pcb.upd s.sk i _ i).rcv = q
    rw [Pcb.upd_self]
  · intro j hj
    unfold recvfrom
    rw [hq]
    exact Pcb.upd_ne _ _ hj

theorem Reach.rinv {c : Pcb.Cfg} (hc : Pcb.CfgOk c) {w : World} (h : Reach c w) (hw : ∀ p ∈ w.fed, Whole p.2.2) (j : Nat) :
    RInv w j := by
  induction h with
  | init => exact ⟨[], [], List.Sublist.refl _, (fun p hp => by cases hp), rfl, rfl⟩
  | step w a hr ha ih =>
    have hi := hr.winv hc
    cases a with
    | call l => exact ih hw
    | option i vrf minttl mopt takes =>
      obtain ⟨l1, l2, h1, h2, h3, h4⟩ := ih hw
      refine ⟨l1, l2, h1, h2, h3, ?_⟩
      show ((Pcb.upd w.s.sk i ⟨vrf, minttl, mopt, takes, (w.s.sk i).rcv⟩) j).rcv.map bare = _
      unfold Pcb.upd
      by_cases hj : j = i
      · rw [if_pos hj]; subst hj; exact h4
      · rw [if_neg hj]; exact h4
    | packet e b =>
      have he : e.cfg = c := ha
      obtain ⟨l1, l2, h1, h2, h3, h4⟩ := ih (fun p hp => hw p (List.mem_append_left _ hp))
      have hsafe := (input_safe e { w.s with next := w.s.next + 1 } { b with id := w.s.next } j).2
      rcases hsafe with hq | ⟨⟨q, hcp, hq⟩, hacc, _, hfor⟩
      · refine ⟨l1, l2, h1.trans (List.sublist_append_left _ _), h2, h3, ?_⟩
        exact (congrArg (List.map bare) hq).trans h4
      · refine ⟨l1, l2 ++ [(e, w.s, { b with id := w.s.next })], ?_, ?_, h3, ?_⟩
        · rw [← List.append_assoc]
          exact List.Sublist.append h1 (List.Sublist.refl _)
        · intro p hp
          rw [← List.append_assoc] at hp
          rcases List.mem_append.1 hp with hp | hp
          · exact h2 p hp
          · rw [List.mem_singleton.1 hp]
            refine ⟨hacc, ?_⟩
            unfold Addressed
            by_cases hg : (multicast ({ b with id := w.s.next } : Buf).dst || broadcast ({ b with id := w.s.next } : Buf).dst) = true
            · rw [if_pos hg] at hfor ⊢; exact hfor
            · rw [if_neg hg] at hfor ⊢
              rw [he] at hfor
              have := Pcb.delivery_exact hc hi.tab ({ b with id := w.s.next } : Buf).src
                ({ b with id := w.s.next } : Buf).sport ({ b with id := w.s.next } : Buf).dst
                ({ b with id := w.s.next } : Buf).dport
              rw [show Pcb.lookupHash c w.s.tab ({ b with id := w.s.next } : Buf).src
                ({ b with id := w.s.next } : Buf).sport ({ b with id := w.s.next } : Buf).dst
                ({ b with id := w.s.next } : Buf).dport true = some j from hfor] at this
              exact this
        · refine (congrArg (List.map bare) hq).trans ?_
          rw [List.map_append, List.map_append]
          have : (w.s.sk j).rcv.map bare = l2.map stored := h4
          rw [show (({ w.s with next := w.s.next + 1 } : St).sk j).rcv = (w.s.sk j).rcv from rfl, this]
          show _ ++ [bare q] = _ ++ [_]
          rw [copy_bare hcp]
          rfl
    | recv i n =>
      obtain ⟨l1, l2, h1, h2, h3, h4⟩ := ih hw
      by_cases hj : j = i
      · subst hj
        cases hq : (w.s.sk j).rcv with
        | nil =>
          have hr0 : recvfrom w.s j n = (none, w.s) := by unfold recvfrom; rw [hq]
          refine ⟨l1, l2, h1, h2, ?_, ?_⟩
          · show (match (recvfrom w.s j n).1 with | none => w.got | some g => _) j = _
            rw [hr0]; exact h3
          · show ((recvfrom w.s j n).2.sk j).rcv.map bare = _
            rw [hr0]; exact h4
        | cons q0 q =>
          rw [hq] at h4
          cases l2 with
          | nil => cases h4
          | cons p r =>
            simp only [List.map_cons, List.cons.injEq] at h4
            have hp : p ∈ w.fed := h1.subset (List.mem_append_right _ (List.mem_cons_self ..))
            have hrc := recv_whole w.s j n p.2.2 q0 q (hw p hp) h4.1 hq
            refine ⟨l1 ++ [(n, p)], r, ?_, ?_, ?_, ?_⟩
            · rw [List.map_append]
              show (_ : List _).Sublist w.fed
              simpa using h1
            · rw [List.map_append]; simpa using h2
            · show (match (recvfrom w.s j n).1 with | none => w.got | some g => _) j = _
              rw [hrc.1]
              show Pcb.upd w.got j _ j = _
              rw [Pcb.upd_self, h3, List.map_append]
              rfl
            · show ((recvfrom w.s j n).2.sk j).rcv.map bare = _
              rw [hrc.2.1]; exact h4.2
      · refine ⟨l1, l2, h1, h2, ?_, ?_⟩
        · show (match (recvfrom w.s i n).1 with | none => w.got | some g => Pcb.upd w.got i _) j = _
          cases (recvfrom w.s i n).1 with
          | none => exact h3
          | some g =>
            show Pcb.upd w.got i _ j = _
            rw [Pcb.upd_ne _ _ hj]; exact h3
        · show ((recvfrom w.s i n).2.sk j).rcv.map bare = _
          rw [← h4]
          unfold recvfrom
          split
          · rfl
          · show ((Pcb.upd w.s.sk i _) j).rcv.map bare = _
            rw [Pcb.upd_ne _ _ hj]
    | close i =>
      obtain ⟨l1, l2, h1, h2, h3, h4⟩ := ih hw
      by_cases hj : j = i
      · subst hj
        refine ⟨l1, [], ?_, ?_, h3, ?_⟩
        · rw [List.append_nil]
          exact (List.sublist_append_left _ _).trans h1
        · intro p hp
          rw [List.append_nil] at hp
          exact h2 p (List.mem_append_left _ hp)
        · show ((Pcb.upd w.s.sk j _) j).rcv.map bare = _
          rw [Pcb.upd_self]; rfl
      · refine ⟨l1, l2, h1, h2, h3, ?_⟩
        show ((Pcb.upd w.s.sk i _) j).rcv.map bare = _
        rw [Pcb.upd_ne _ _ hj]; exact h4

/-- **C116.**  If the packets that came in were complete datagrams: what a socket has read in any history are datagrams
that came in, in the order they came, each at most once; each had passed the checks and was for this socket when it
came; and each read returned its data (as much as was asked for) with the address and port of its sender. -/
theorem receive_history {c : Pcb.Cfg} (hc : Pcb.CfgOk c) {w : World} (h : Reach c w) (hw : ∀ p ∈ w.fed, Whole p.2.2)
    (j : Nat) :
    ∃ l : List (Env × St × Buf), l.Sublist w.fed ∧ l.length = (w.got j).length ∧
      (∀ p ∈ l, p.2.2.dport ≠ 0 ∧ SumOk p.1.al p.2.2 ∧ Addressed p.2.1 p.2.2 j) ∧
      ∀ (k n : Nat) (g : Got), (w.got j)[k]? = some (n, g) → 
        ∃ p : Env × St × Buf, l[k]? = some p ∧ g.data = p.2.2.payload.take n ∧ Names g.from' p.2.2.src p.2.2.sport := by
  obtain ⟨l1, l2, h1, h2, h3, _⟩ := h.rinv hc hw j
  refine ⟨l1.map Prod.snd, (List.sublist_append_left _ _).trans h1, by rw [h3]; simp, ?_, ?_⟩
  · intro p hp
    have := h2 p (List.mem_append_left _ hp)
    exact ⟨this.1.port, rejects_false this.1.sum, this.2⟩
  · intro k n g hk
    rw [h3, List.getElem?_map, Option.map_eq_some_iff] at hk
    obtain ⟨⟨m, p⟩, h5, h6⟩ := hk
    simp only [Prod.mk.injEq] at h6
    obtain ⟨rfl, rfl⟩ := h6
    exact ⟨p, by rw [List.getElem?_map, h5]; rfl, rfl, sockaddr_names _ _ (Buf.be32_lt _ _) (Buf.be16_lt _ _)⟩

end Verif.Udp
