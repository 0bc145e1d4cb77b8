import Verif.Ip6.World
/-! # Accesses outside packets and tables; Ethernet addresses of next hops -/
namespace Verif.Ip6
open Verif Radix

/-- An event that is no memory error. -/
def tidy : Ev → Prop
  | .outside _ | .wild | .crash => False
  | _ => True

/-- Only tidy events were added. -/
def Adds (s s' : St) : Prop := ∃ l, s'.evs = s.evs ++ l ∧ ∀ e ∈ l, tidy e

theorem Adds.of_eq {s s' : St} (h : s'.evs = s.evs) : Adds s s' := ⟨[], by simp [h], by simp⟩
theorem Adds.rfl' (s : St) : Adds s s := Adds.of_eq rfl
theorem Adds.trans {a b c : St} (h : Adds a b) (g : Adds b c) : Adds a c := by
  obtain ⟨l, h1, h2⟩ := h
  obtain ⟨m, g1, g2⟩ := g
  refine ⟨l ++ m, by rw [g1, h1, List.append_assoc], ?_⟩
  intro e he
  rcases List.mem_append.1 he with he | he
  · exact h2 e he
  · exact g2 e he
theorem Adds.emit (s : St) (e : Ev) (h : tidy e) : Adds s (s.emit e) :=
  ⟨[e], rfl, by intro x hx; simp only [List.mem_singleton] at hx; subst hx; exact h⟩
theorem Adds.alloc (s : St) : Adds s s.alloc :=
  ⟨[.alloc s.next], rfl, by intro x hx; simp only [List.mem_singleton] at hx; subst hx; trivial⟩

theorem addRoute_evs (env : Env) (s : St) (dst len gw port vlan l) : (addRoute env s dst len gw port vlan l).evs = s.evs := by
  unfold addRoute; split <;> rfl

theorem savePkt_adds (env : Env) (id p s) : Adds s (savePkt env id p s).2 := by
  unfold savePkt
  repeat' split
  · exact Adds.rfl' s
  · exact Adds.rfl' s
  · exact ⟨[_], rfl, by intro x hx; simp only [List.mem_singleton] at hx; subst hx; trivial⟩

theorem nsOutput_adds (env : Env) (d gw t s) : Adds s (nsOutput env d gw t s).2 := by
  unfold nsOutput
  split
  · exact Adds.rfl' s
  · exact (Adds.alloc s).trans (Adds.emit _ _ trivial)

theorem resolve_adds (env : Env) (id p d gw s) : Adds s (resolve env id p d gw s).2 := by
  have h0 : Adds s (addRoute env s p.dst 128 any (env.dev d).port (env.dev d).vlan false) := Adds.of_eq (addRoute_evs ..)
  have h1 := nsOutput_adds env d gw p.dst (addRoute env s p.dst 128 any (env.dev d).port (env.dev d).vlan false)
  unfold resolve
  dsimp only
  split
  · rename_i s2 he; rw [he] at h1; exact h0.trans h1
  · rename_i s2 _ he; rw [he] at h1; exact (h0.trans h1).trans (savePkt_adds env id p s2)

theorem ip6Output_adds (env : Env) (id p nh s) : Adds s (ip6Output env id p nh s).2 := by
  unfold ip6Output outDev
  repeat' split
  all_goals first
    | exact Adds.rfl' s
    | exact Adds.emit s _ trivial
    | exact resolve_adds env id p _ _ s

theorem sendHeld_adds (env : Env) (i : Nat) : ∀ l s, Adds s (sendHeld env i l s) := by
  intro l
  induction l with
  | nil => intro s; exact Adds.rfl' s
  | cons x l ih =>
    intro s
    unfold sendHeld
    dsimp only
    refine Adds.trans ?_ (ih _)
    have h := ip6Output_adds env x.1 x.2 (some i) s
    split
    · exact (h.trans (Adds.emit _ (.free x.1) trivial)).trans (Adds.of_eq rfl)
    · exact h.trans (Adds.of_eq rfl)

theorem learn_adds (env : Env) (d a mac s) : Adds s (learn env d a mac s) := by
  unfold learn
  have h0 : Adds s (addRoute env s a 128 any (env.dev d).port (env.dev d).vlan false) := Adds.of_eq (addRoute_evs ..)
  refine h0.trans ?_
  unfold addMac
  split
  · exact Adds.rfl' _
  · exact Adds.trans (Adds.of_eq rfl) (sendHeld_adds env _ _ _)

/-- The interface of every next hop exists. -/
def Wired (env : Env) (s : St) : Prop := ∀ i, env.ifnet (s.nh i).port (s.nh i).vlan ≠ none

theorem reflect_adds (env : Env) (id p s) (h : Wired env s) : Adds s (reflect env id p s) := by
  unfold reflect
  dsimp only
  split
  · rename_i i _
    split
    · rename_i he; exact absurd he (h i)
    · exact ip6Output_adds ..
  · split
    · exact Adds.emit _ _ trivial
    · exact ip6Output_adds ..

theorem icmpError_adds (env : Env) (id p type code param s) (h : Wired env s) (hq : quoteLen p ≤ p.bytes.length) :
    Adds s (icmpError env id p type code param s) := by
  unfold icmpError
  split
  · exact Adds.emit _ _ trivial
  · split
    · exact Adds.emit _ _ trivial
    · dsimp only
      rw [if_neg (by omega)]
      exact ((Adds.alloc s).trans (Adds.emit _ (.free id) trivial)).trans (reflect_adds env _ _ _ h)

theorem notifyError_adds (env : Env) (p s) : Adds s (notifyError env p s) := by
  unfold notifyError
  repeat' split
  · exact Adds.rfl' s
  · exact Adds.rfl' s
  · exact Adds.emit _ _ trivial

/-- The ICMPv6 messages that are handled without accesses outside the packet and the protocol table. -/
def safeIcmp (env : Env) (p : Pkt) : Prop :=
  let type := (p.body.getD 0 0).toNat
  (1 ≤ type ∧ type ≤ 4) ∨ type = 128 ∨ type = 129 ∨ (type = 135 ∧ env.sp = false ∧ 32 ≤ p.body.length)

theorem icmpType_adds (env : Env) (id d smac p) (s : St) (hw : Wired env s) (hs : safeIcmp env p) (code : Nat) :
    Adds s (icmpType env id d smac p (p.body.getD 0 0).toNat code s).2 ∧
      (icmpType env id d smac p (p.body.getD 0 0).toNat code s).1 ≠ .cont := by
  unfold safeIcmp at hs
  dsimp only at hs
  generalize (p.body.getD 0 0).toNat = type at *
  unfold icmpType
  split
  · split
    · exact ⟨notifyError_adds env p s, by intro h; cases h⟩
    · exact ⟨Adds.rfl' s, by intro h; cases h⟩
  · split
    · split
      · exact ⟨Adds.rfl' s, by intro h; cases h⟩
      · exact ⟨reflect_adds env id _ s hw, by intro h; cases h⟩
    · split
      · split
        · exact ⟨Adds.rfl' s, by intro h; cases h⟩
        · exact ⟨Adds.rfl' s, by intro h; cases h⟩
      · split
        · rename_i h135
          split
          · exact ⟨Adds.rfl' s, by intro h; cases h⟩
          · have hl : 32 ≤ p.body.length ∧ env.sp = false := by
              rcases hs with h | h | h | h
              · omega
              · omega
              · omega
              · exact ⟨h.2.2, h.2.1⟩
            have t1 : ∀ x : St, touch id p 25 x = x := fun x => by unfold touch; rw [if_neg (by omega)]
            have t2 : ∀ x : St, touch id p 32 x = x := fun x => by unfold touch; rw [if_neg (by omega)]
            have h1 : Adds s (nsInput env d smac p s) := by
              unfold nsInput; split
              · exact learn_adds ..
              · exact Adds.rfl' s
            dsimp only
            rw [hl.2, t1, t2]
            simp only [Bool.false_eq_true, if_false]
            rw [if_neg (by omega)]
            refine ⟨?_, by intro h; cases h⟩
            refine (h1.trans ?_).trans (Adds.emit _ _ trivial)
            unfold naOutput
            split
            · exact Adds.rfl' _
            · exact (Adds.alloc _).trans (Adds.emit _ _ trivial)
        · exfalso; omega

/-- The frames whose processing stays inside the packet: at least an IPv6 header; ICMPv6 messages as above; packets that
cause an ICMPv6 error are as long as their header says. -/
def safe (env : Env) (f : Frame) : Prop :=
  40 ≤ f.raw.length ∧ ((parse f.raw).nxt = 58 → safeIcmp env (parse f.raw)) ∧
  (isExt (parse f.raw) ∨ (parse f.raw).nxt = 17 → quoteLen (parse f.raw) ≤ (parse f.raw).bytes.length)

theorem classify_adds (env : Env) (id d smac p) (s : St) (hw : Wired env s) (h1 : p.nxt = 58 → safeIcmp env p)
    (h2 : isExt p ∨ p.nxt = 17 → quoteLen p ≤ p.bytes.length) : Adds s (classify env id d smac p s).2 := by
  unfold classify
  split
  · rename_i h58
    have hi : Adds s (icmpInput env id d smac p s).2 ∧ (icmpInput env id d smac p s).1 ≠ .cont := by
      unfold icmpInput
      split
      · exact ⟨Adds.rfl' s, by intro h; cases h⟩
      · split
        · exact icmpType_adds env id d smac p s hw (h1 h58) _
        · exact ⟨Adds.rfl' s, by intro h; cases h⟩
    split
    · rename_i s1 he; rw [he] at hi; exact absurd rfl hi.2
    · exact hi.1
  · split
    · rename_i h17
      split
      · exact Adds.emit _ _ trivial
      · exact Adds.rfl' s
      · unfold udpNoPort
        split
        · exact Adds.rfl' s
        · split
          · exact Adds.rfl' s
          · exact icmpError_adds env id p _ _ _ s hw (h2 (Or.inr h17))
    · split
      · split
        · exact Adds.emit _ _ trivial
        · exact Adds.rfl' s
      · split
        · rename_i h
          exact icmpError_adds env id p _ _ _ s hw (h2 (Or.inl (by unfold isExt; omega)))
        · split <;> exact Adds.rfl' s

/-- **C162 (partial).** A received frame that is safe in the above sense, in a state in which the interface of every next
hop exists, is processed without an access outside the packet or the protocol table and without a NULL dereference. -/
theorem ip6_input_in_bounds_partial (env : Env) (f : Frame) (s : St) (hf : safe env f) (hw : Wired env s) :
    ∃ l, (rx env f s).evs = s.evs ++ l ∧ ∀ e ∈ l, (∀ i, e ≠ .outside i) ∧ e ≠ .wild ∧ e ≠ .crash := by
  have h : Adds s (rx env f s) := by
    unfold rx
    rw [if_neg (by have := hf.1; omega)]
    have hp : Adds s.alloc (process env s.next f.dev f.smac (parse f.raw) s.alloc).2 := by
      unfold process
      repeat' split
      all_goals first
        | exact Adds.rfl' _
        | exact Adds.emit _ _ trivial
        | exact classify_adds env _ _ _ _ s.alloc hw hf.2.1 hf.2.2
        | exact ip6Output_adds ..
    refine ((Adds.alloc s).trans hp).trans ?_
    unfold finish
    split
    · exact Adds.emit _ _ trivial
    · exact Adds.rfl' _
    · split
      · exact Adds.emit _ _ trivial
      · exact Adds.emit _ _ trivial
  obtain ⟨l, h1, h2⟩ := h
  refine ⟨l, h1, fun e he => ?_⟩
  have := h2 e he
  cases e <;> first | exact absurd this id | exact ⟨(by intro i hh; cases hh), (by intro hh; cases hh), (by intro hh; cases hh)⟩

example : safe env0 (frameOf 0 (macOf 9) (icmp6 (addrOf 0 2) (addrOf 0 1) 64 [128, 0, 0, 0, 0, 1, 0, 1])) ∧
    safe env0 (frameOf 0 (macOf 9) (nsOf (addrOf 0 2) (addrOf 0 1) 255 (addrOf 0 1) (macOf 2))) ∧
    Wired env0 (run env0 (init 300) [.addRoute (addrOf 0 0) 64 any 0 0 false]) := by
  refine ⟨?_, ?_, ?_⟩
  · unfold safe safeIcmp isExt; decide +kernel
  · unfold safe safeIcmp isExt; decide +kernel
  · intro i h
    have : ((run env0 (init 300) [.addRoute (addrOf 0 0) 64 any 0 0 false]).nh i).port = 0 ∧
        ((run env0 (init 300) [.addRoute (addrOf 0 0) 64 any 0 0 false]).nh i).vlan = 0 := by
      show ((addRoute env0 (init 300) (addrOf 0 0) 64 any 0 0 false).nh i).port = 0 ∧
        ((addRoute env0 (init 300) (addrOf 0 0) 64 any 0 0 false).nh i).vlan = 0
      unfold addRoute
      split
      · show (if i = _ then _ else _ : Nh).port = 0 ∧ (if i = _ then _ else _ : Nh).vlan = 0
        split <;> exact ⟨rfl, rfl⟩
      · exact ⟨rfl, rfl⟩
    rw [this.1, this.2] at h
    revert h; decide

theorem getD_left (b x : List UInt8) (i : Nat) (h : i < b.length) : (b ++ x).getD i 0 = b.getD i 0 := by
  rw [List.getD_eq_getElem?_getD, List.getD_eq_getElem?_getD, List.getElem?_append_left h]

theorem drop_take_left (b x : List UInt8) (i n : Nat) (h : i + n ≤ b.length) :
    ((b ++ x).drop i).take n = (b.drop i).take n := by
  rw [List.drop_append_of_le_length (by omega), List.take_append_of_le_length (by rw [List.length_drop]; omega)]

/-- The loop over the headers of the quoted packet. -/
theorem walk_in_bounds (b x y : List UInt8) : ∀ (m eoff nxt : Nat) (fin : Option Addr), b.length - eoff ≤ m →
    walk (b ++ x) b.length eoff nxt fin = walk (b ++ y) b.length eoff nxt fin := by
  intro m
  induction m with
  | zero =>
    intro eoff nxt fin h
    conv => lhs; unfold walk
    conv => rhs; unfold walk
    split
    · rw [if_pos (by omega), if_pos (by omega)]
    · split
      · rw [if_pos (by omega), if_pos (by omega)]
      · split
        · rw [if_pos (by omega), if_pos (by omega)]
        · rfl
  | succ m ih =>
    intro eoff nxt fin h
    conv => lhs; unfold walk
    conv => rhs; unfold walk
    split
    · split
      · rfl
      · rename_i h2
        rw [getD_left b x _ (by omega), getD_left b x _ (by omega), getD_left b y _ (by omega), getD_left b y _ (by omega)]
        exact ih _ _ _ (by split <;> omega)
    · split
      · split
        · rfl
        · rename_i h2
          rw [getD_left b x _ (by omega), getD_left b x _ (by omega), getD_left b x _ (by omega), getD_left b x _ (by omega),
            getD_left b y _ (by omega), getD_left b y _ (by omega), getD_left b y _ (by omega), getD_left b y _ (by omega)]
          dsimp only
          split
          · split
            · rfl
            · rename_i h3
              by_cases hc : (b.getD (eoff + 1) 0).toNat % 2 = 0 ∧ (b.getD (eoff + 1) 0).toNat / 2 ≠ 0
              · rw [if_pos hc, if_pos hc, drop_take_left b x _ _ (by omega), drop_take_left b y _ _ (by omega)]
                exact ih _ _ _ (by omega)
              · rw [if_neg hc, if_neg hc]
                exact ih _ _ _ (by omega)
          · exact ih _ _ _ (by omega)
      · split
        · split
          · rfl
          · rename_i h2
            rw [getD_left b x _ (by omega), getD_left b x _ (by omega), getD_left b x _ (by omega),
              getD_left b y _ (by omega), getD_left b y _ (by omega), getD_left b y _ (by omega)]
            split
            · rfl
            · exact ih _ _ _ (by omega)
        · rfl

/-- **C162.** Examining the packet quoted in an ICMPv6 error, whatever chain of extension headers it has, never reads
outside the received packet: the result does not depend on the memory after it. -/
theorem ip6_notify_in_bounds (env : Env) (m1 m2 : List UInt8) (p : Pkt) (s : St) :
    notifyError { env with beyond := m1 } p s = notifyError { env with beyond := m2 } p s := by
  unfold notifyError
  split
  · rfl
  · unfold mem
    dsimp only
    rw [getD_left _ _ _ (by omega), getD_left _ _ _ (by omega), drop_take_left _ _ _ _ (by omega),
      drop_take_left _ _ _ _ (by omega), walk_in_bounds p.bytes m1 m2 _ _ _ _ (Nat.le_refl _)]

/-- **C162 refuted: short frames.** The header of a frame cut off inside the IPv6 header is read beyond its end. -/
theorem ip6_short_frame_violated : ∃ (env : Env) (f : Frame), Ev.outside 0 ∈ (rx env f (init 1)).evs :=
  ⟨env0, ⟨0, macOf 9, [96, 0, 0]⟩, by decide +kernel⟩

/-- **C162 refuted: neighbour discovery.** The option of a valid 24-byte neighbour solicitation is read beyond its end. -/
theorem ip6_short_ns_violated : ∃ (env : Env) (f : Frame), Ev.outside 0 ∈ (rx env f (init 1)).evs := by
  have hr := rx_icmp env0 0 (macOf 9) (icmp6 (addrOf 0 2) (addrOf 0 1) 255 ([135, 0, 0, 0, 0, 0, 0, 0] ++ addrOf 0 1)) (init 1)
      (by decide +kernel) (by decide +kernel) (by decide +kernel) (by decide +kernel) (by decide +kernel)
      (by decide +kernel) (by decide +kernel) (by decide +kernel) (by decide +kernel)
  refine ⟨env0, frameOf 0 (macOf 9) (icmp6 (addrOf 0 2) (addrOf 0 1) 255 ([135, 0, 0, 0, 0, 0, 0, 0] ++ addrOf 0 1)), ?_⟩
  rw [hr]; decide +kernel

/-- **C162 refuted: quoted packets.** A 48-byte frame whose header announces 1000 bytes, sent to a closed UDP port: the
error message quotes 992 bytes of memory after the packet. -/
theorem ip6_quote_violated : ∃ (env : Env) (f : Frame), Ev.outside 0 ∈ (rx env f (init 1)).evs :=
  ⟨env0, frameOf 0 (macOf 9) ⟨[96, 0, 0, 0], 1000, 17, 64, addrOf 0 2, addrOf 0 1, [0, 1, 0, 2, 0, 8, 0, 0]⟩, by
    rw [rx_process _ _ _ _ _ (by decide) (by decide) (by decide) (by decide)]
    decide +kernel⟩

/-- **C162 refuted: protocol table.** Every neighbour advertisement for this host makes the code read the 256-byte protocol
table at index 257. -/
theorem ip6_table_index_violated (env : Env) (d : Nat) (smac : Mac) (p : Pkt) (s : St) (h : p.wf) (h1 : p.plen < 65536)
    (h3 : p.hlim < 256) (ho : isOurs env d p s.alloc = true) (hk : env.hookLocal p = .cont ∧ env.hookLocal6 p = .cont)
    (hn : p.nxt = 58) (h24 : 24 ≤ p.body.length) (hb : p.body.length ≤ 65535)
    (hc : transport6 (clearScope p.src) (clearScope p.dst) 58 p.body = 0)
    (ht : (p.body.getD 0 0).toNat = 136) (hcode : (p.body.getD 1 0).toNat = 0) :
    Ev.wild ∈ (rx env (frameOf d smac p) s).evs := by
  rw [rx_icmp env d smac p s h h1 h3 ho hk hn (by omega) hb hc, ht, hcode]
  have : icmpType env s.next d smac p 136 0 s.alloc = (.cont, naInput env d smac p (touch s.next p 25 s.alloc)) := by
    unfold icmpType
    simp only [show ¬ (136 = 1 ∨ 136 = 2 ∨ 136 = 3 ∨ 136 = 4) by omega, show ¬ (136 = 128) by omega,
      show ¬ (136 = 129) by omega, show ¬ (136 = 135) by omega, if_false, if_true]
    rw [if_neg (by omega)]
  rw [this]
  unfold afterIcmp finish
  dsimp only
  split <;> simp

example : let p := naOf (addrOf 0 5) (addrOf 0 1) 255 (addrOf 0 5) (macOf 5)
    p.wf ∧ isOurs env0 0 p (init 1).alloc = true ∧ p.nxt = 58 ∧ 24 ≤ p.body.length ∧
      transport6 (clearScope p.src) (clearScope p.dst) 58 p.body = 0 ∧ (p.body.getD 0 0).toNat = 136 := by
  decide +kernel

/-! ## Ethernet addresses change only by neighbour discovery -/

/-- The Ethernet addresses of the existing next hops are as before. -/
def MacKeep (s s' : St) : Prop := s.nnh ≤ s'.nnh ∧ ∀ i, i < s.nnh → (s'.nh i).mac = (s.nh i).mac

theorem MacKeep.of_eq {s s' : St} (h : s'.nh = s.nh) (h' : s'.nnh = s.nnh) : MacKeep s s' :=
  ⟨Nat.le_of_eq h'.symm, fun i _ => by rw [h]⟩

theorem Out.macKeep {nodes s T id r} (h : Out nodes s T id r) : MacKeep s r.2 := by
  obtain ⟨_, T', k, _, m⟩ := h; exact ⟨k.nnh, m⟩

theorem reflect_mac {nodes s T} (env : Env) (hi : Inv nodes s T) (id : Nat) (p : Pkt) (hp : p.src.length = 16) :
    MacKeep s (reflect env id p s) := by
  unfold reflect
  dsimp only
  split
  · split
    · exact MacKeep.of_eq rfl rfl
    · exact (ip6Output_out env hi id _ (by rw [reply_dst]; exact hp) _).macKeep
  · split
    · exact MacKeep.of_eq rfl rfl
    · exact (ip6Output_out env hi id _ (by rw [reply_dst]; exact hp) _).macKeep

theorem icmpError_mac {nodes s T} (env : Env) (hi : Inv nodes s T) (id : Nat) (p : Pkt) (hp : p.src.length = 16)
    (type code param : Nat) : MacKeep s (icmpError env id p type code param s) := by
  unfold icmpError
  split
  · exact MacKeep.of_eq rfl rfl
  · split
    · exact MacKeep.of_eq rfl rfl
    · dsimp only
      split
      · exact reflect_mac env ((hi.alloc.emit _).emit _) s.next (errPkt env p type code param) hp
      · exact reflect_mac env (hi.alloc.emit _) s.next (errPkt env p type code param) hp

/-- **C158 (partial).** Whatever frame is received: every route that existed stays, with its gateway, interface and LOCAL
flag; routes that appear are host routes to neighbours; and unless the frame is an ICMPv6 message of type 135 or 136, no
Ethernet address of an existing next hop changes. -/
theorem ip6_input_keeps_routes_partial {nodes s T} (env : Env) (hi : Inv nodes s T) (f : Frame) :
    ∃ T', Inv nodes (rx env f s) T' ∧ (∀ p i, T p = some i → T' p = some i) ∧
      (∀ i, i < s.nnh → ((rx env f s).nh i).gw = (s.nh i).gw ∧ ((rx env f s).nh i).port = (s.nh i).port ∧
        ((rx env f s).nh i).vlan = (s.nh i).vlan ∧ ((rx env f s).nh i).isLocal = (s.nh i).isLocal) ∧
      (∀ p i, T p = none → T' p = some i →
        ((rx env f s).nh i).gw = any ∧ ((rx env f s).nh i).isLocal = false ∧ p.length = 128) ∧
      (¬ ((parse f.raw).nxt = 58 ∧ (((parse f.raw).body.getD 0 0).toNat = 135 ∨ ((parse f.raw).body.getD 0 0).toNat = 136)) →
        ∀ i, i < s.nnh → ((rx env f s).nh i).mac = (s.nh i).mac) := by
  obtain ⟨T', k, _⟩ := rx_full env hi f
  refine ⟨T', k.inv, k.ext, k.attr, fun p i h h' => (k.added p i h h').2, ?_⟩
  intro hn
  have hfin : ∀ r : Code × St, (finish env s.next r).nh = r.2.nh := by
    intro r
    rcases finish_eq env s.next r with ⟨_, h⟩ | ⟨_, e, _, h⟩ <;> rw [h] <;> rfl
  have : MacKeep s.alloc (rx env f s) := by
    refine ⟨k.nnh, ?_⟩
    unfold rx
    rw [hfin]
    split
    · intro i _; rfl
    · rename_i hlen
      obtain ⟨h1, h2⟩ := parse_lengths f.raw (by omega)
      generalize parse f.raw = p at *
      suffices h : MacKeep s.alloc (process env s.next f.dev f.smac p s.alloc).2 from h.2
      have hcl : MacKeep s.alloc (classify env s.next f.dev f.smac p s.alloc).2 := by
        unfold classify
        split
        · rename_i h58
          have hi' : MacKeep s.alloc (icmpInput env s.next f.dev f.smac p s.alloc).2 := by
            unfold icmpInput
            split
            · exact MacKeep.of_eq rfl rfl
            · split
              · unfold icmpType
                split
                · split
                  · unfold notifyError
                    repeat' split
                    all_goals exact MacKeep.of_eq rfl rfl
                  · exact MacKeep.of_eq rfl rfl
                · split
                  · split
                    · exact MacKeep.of_eq rfl rfl
                    · exact reflect_mac env hi.alloc s.next { p with body := (p.body.set 0 129).set 1 0 } h1
                  · split
                    · split <;> exact MacKeep.of_eq rfl rfl
                    · rw [if_neg (fun h => hn ⟨h58, Or.inl h⟩), if_neg (fun h => hn ⟨h58, Or.inr h⟩)]
                      repeat' split
                      all_goals exact MacKeep.of_eq rfl rfl
              · exact MacKeep.of_eq rfl rfl
          split
          · rename_i s1 he; rw [he] at hi'; exact hi'
          · exact hi'
        · split
          · split
            · exact MacKeep.of_eq rfl rfl
            · exact MacKeep.of_eq rfl rfl
            · unfold udpNoPort
              split
              · exact MacKeep.of_eq rfl rfl
              · split
                · exact MacKeep.of_eq rfl rfl
                · exact icmpError_mac env hi.alloc _ p h1 _ _ _
          · split
            · split <;> exact MacKeep.of_eq rfl rfl
            · split
              · exact icmpError_mac env hi.alloc _ p h1 _ _ _
              · split <;> exact MacKeep.of_eq rfl rfl
      unfold process
      repeat' split
      all_goals first
        | exact hcl
        | exact (ip6Output_out env hi.alloc s.next p h2 _).macKeep
        | exact MacKeep.of_eq rfl rfl
  intro i hlt
  exact this.2 i hlt

/-- **C158 refuted.** 2001:db8:7::9 is reached over interface 1.  A neighbour advertisement with hop limit 64 - it came from
beyond a router - received on interface 0 makes packets for it leave on interface 0 to the sender of the advertisement.
-/
theorem ip6_redirect_violated : ∃ (env : Env) (r : Op) (p : Pkt), r.wf ∧ p.hlim = 64 ∧
    (run env (init 300) [r, .send (pktTo (addrOf 7 9))]).evs.getLast? = some (.wait 0 1 (pktTo (addrOf 7 9))) ∧
    ((run env (init 300) [r, .send (pktTo (addrOf 7 9))]).nh 1).port = 1 ∧
    (run env (init 300) [r, .rx (frameOf 0 (macOf 66) p), .send (pktTo (addrOf 7 9))]).evs.getLast? =
      some (.tx 1 0 (macOf 66) (pktTo (addrOf 7 9))) := by
  have hr := rx_icmp env0 0 (macOf 66) (naOf (addrOf 3 3) (addrOf 0 1) 64 (addrOf 7 9) (macOf 66))
    (run env0 (init 300) [.addRoute (addrOf 7 0) 64 any 1 0 false])
        (by decide +kernel) (by decide +kernel) (by decide +kernel) (by decide +kernel) (by decide +kernel)
        (by decide +kernel) (by decide +kernel) (by decide +kernel) (by decide +kernel)
  refine ⟨env0, .addRoute (addrOf 7 0) 64 any 1 0 false, naOf (addrOf 3 3) (addrOf 0 1) 64 (addrOf 7 9) (macOf 66),
    ⟨by decide, by decide⟩, by decide +kernel, by decide +kernel, by decide +kernel, ?_⟩
  rw [run3, hr]
  decide +kernel

end Verif.Ip6
