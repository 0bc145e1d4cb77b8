import Verif.Fwd.Spec
/-! # Accounting of packet buffers: lemmas -/
namespace Verif.Fwd

/-- At most once, and exactly once if `lo`. -/
def Bd (lo : Bool) (n : Nat) : Prop := n ≤ 1 ∧ (lo = true → n = 1)

theorem bd_one (lo) : Bd lo 1 := ⟨by omega, fun _ => rfl⟩

/-- A function working on buffer `id` went from `s` to `s'` with result `c`. -/
structure Acc (lo : Bool) (id : Nat) (c : Code) (s s' : St) : Prop where
  next_le : s.next ≤ s'.next
  ext : ∃ new, s'.evs = s.evs ++ new ∧
    (∀ j, made j new = if s.next ≤ j ∧ j < s'.next then 1 else 0) ∧
    (∀ j, j ≠ id → j < s.next ∨ s'.next ≤ j → cnt j new = 0) ∧
    (∀ j, s.next ≤ j → j < s'.next → Bd lo (cnt j new)) ∧
    (c = .processed → Bd lo (cnt id new)) ∧ (c ≠ .processed → cnt id new = 0)

theorem cnt_append (j) (a b : List Ev) : cnt j (a ++ b) = cnt j a + cnt j b := List.countP_append ..
theorem made_append (j) (a b : List Ev) : made j (a ++ b) = made j a + made j b := List.countP_append ..
theorem cnt_nil (j) : cnt j [] = 0 := rfl
theorem made_nil (j) : made j [] = 0 := rfl
theorem cnt_single (j) (e : Ev) : cnt j [e] = if e.ends = some j then 1 else 0 := by
  unfold cnt; rw [List.countP_cons]; simp
theorem made_single (j) (e : Ev) : made j [e] = if e = .alloc j then 1 else 0 := by
  unfold made; rw [List.countP_cons]; simp

theorem Acc.refl (lo id) {c} (s : St) (hc : c ≠ .processed) : Acc lo id c s s :=
  ⟨Nat.le_refl _, [], by simp, fun j => by rw [if_neg (by omega)]; rfl, fun _ _ _ => rfl,
    fun j h1 h2 => by omega, fun h => absurd h hc, fun _ => rfl⟩

/-- An event that concerns no buffer. -/
theorem Acc.note (lo id) {c} (s : St) (e : Ev) (hc : c ≠ .processed) (he : e.ends = none) (ha : ∀ j, e ≠ .alloc j) :
    Acc lo id c s (s.emit e) := by
  refine ⟨Nat.le_refl _, [e], rfl, fun j => ?_, fun j _ _ => ?_, fun j h1 h2 => ?_, fun h => absurd h hc, fun _ => ?_⟩
  · rw [if_neg (by show ¬ (_ ∧ j < s.next); omega), made_single, if_neg (ha j)]
  · rw [cnt_single, he, if_neg (by simp)]
  · have : j < s.next := h2
    omega
  · rw [cnt_single, he, if_neg (by simp)]

/-- An event that disposes of the buffer. -/
theorem Acc.done (lo id) (s : St) (e : Ev) (hid : id < s.next) (he : e.ends = some id) :
    Acc lo id .processed s (s.emit e) := by
  refine ⟨Nat.le_refl _, [e], rfl, fun j => ?_, fun j hj _ => ?_, fun j h1 h2 => ?_, fun _ => ?_, fun h => absurd rfl h⟩
  · rw [if_neg (by show ¬ (_ ∧ j < s.next); omega), made_single, if_neg]
    rintro rfl; cases he
  · rw [cnt_single, he, if_neg (by simp; omega)]
  · have : j < s.next := h2
    omega
  · rw [cnt_single, he, if_pos rfl]; exact bd_one lo

theorem Acc.trans {lo id c c' s s1 s2} (h : Acc lo id c s s1) (hc : c ≠ .processed) (hid : id < s.next)
    (h' : Acc lo id c' s1 s2) : Acc lo id c' s s2 := by
  obtain ⟨l1, n1, e1, m1, o1, b1, _, z1⟩ := h
  obtain ⟨l2, n2, e2, m2, o2, b2, p2, z2⟩ := h'
  have z1 := z1 hc
  refine ⟨by omega, n1 ++ n2, by rw [e2, e1, List.append_assoc], fun j => ?_, fun j hj h => ?_, fun j h1 h2 => ?_, fun h => ?_, fun h => ?_⟩
  · rw [made_append, m1, m2]
    by_cases ha : s.next ≤ j ∧ j < s1.next
    · rw [if_pos ha, if_neg (by omega), if_pos (by omega)]
    · rw [if_neg ha]
      by_cases hb : s1.next ≤ j ∧ j < s2.next
      · rw [if_pos hb, if_pos (by omega)]
      · rw [if_neg hb, if_neg (by omega)]
  · rw [cnt_append, o1 j hj (by omega), o2 j hj (by omega)]
  · rw [cnt_append]
    by_cases ha : j < s1.next
    · rw [o2 j (by omega) (by omega)]; exact b1 j h1 ha
    · rw [o1 j (by omega) (by omega), Nat.zero_add]; exact b2 j (by omega) h2
  · rw [cnt_append, z1, Nat.zero_add]; exact p2 h
  · rw [cnt_append, z1, z2 h]

/-- The buffer is freed after a function did not dispose of it. -/
theorem Acc.free {lo id c s s1} (h : Acc lo id c s s1) (hc : c ≠ .processed) (hid : id < s.next) :
    Acc lo id .processed s (s1.emit (.free id)) :=
  h.trans hc hid (Acc.done lo id s1 _ (Nat.lt_of_lt_of_le hid h.next_le) rfl)

/-- A newly allocated buffer that has been disposed of. -/
theorem Acc.alloc {lo id s s2} (hid : id < s.next)
    (h : Acc lo s.next .processed s.alloc s2) : Acc lo id .drop s s2 := by
  obtain ⟨l, n, e, m, o, b, p, _⟩ := h
  have p := p rfl
  have l : s.next + 1 ≤ s2.next := l
  have m : ∀ j, made j n = if s.next + 1 ≤ j ∧ j < s2.next then 1 else 0 := m
  have o : ∀ j, j ≠ s.next → j < s.next + 1 ∨ s2.next ≤ j → cnt j n = 0 := o
  have b : ∀ j, s.next + 1 ≤ j → j < s2.next → Bd lo (cnt j n) := b
  refine ⟨by omega, .alloc s.next :: n, by rw [e]; unfold St.alloc; simp, fun j => ?_, fun j hj h => ?_, fun j h1 h2 => ?_,
    fun h => absurd h (by simp), fun _ => ?_⟩
  · rw [show Ev.alloc s.next :: n = [.alloc s.next] ++ n from rfl, made_append, m, made_single]
    by_cases hj : j = s.next
    · subst hj; rw [if_pos rfl, if_neg (by omega), if_pos (by omega)]
    · rw [if_neg (by simp; omega)]
      by_cases ha : s.next + 1 ≤ j ∧ j < s2.next
      · rw [if_pos ha, if_pos (by omega)]
      · rw [if_neg ha, if_neg (by omega)]
  · rw [show Ev.alloc s.next :: n = [.alloc s.next] ++ n from rfl, cnt_append, cnt_single, if_neg (by simp [Ev.ends]),
      o j (by omega) (by omega)]
  · rw [show Ev.alloc s.next :: n = [.alloc s.next] ++ n from rfl, cnt_append, cnt_single, if_neg (by simp [Ev.ends]),
      Nat.zero_add]
    by_cases hj : j = s.next
    · subst hj; exact p
    · exact b j (by omega) h2
  · rw [show Ev.alloc s.next :: n = [.alloc s.next] ++ n from rfl, cnt_append, cnt_single, if_neg (by simp [Ev.ends]),
      o id (by omega) (by omega)]

/-- Without exactness a buffer may be forgotten. -/
theorem Acc.forget {id c s s1} (h : Acc false id c s s1) : Acc false id .processed s s1 := by
  obtain ⟨l, n, e, m, o, b, p, z⟩ := h
  refine ⟨l, n, e, m, o, b, fun _ => ?_, fun h => absurd rfl h⟩
  by_cases hc : c = .processed
  · exact p hc
  · rw [z hc]; exact ⟨by omega, by simp⟩

theorem Acc.code {lo id c c' s s1} (h : Acc lo id c s s1) (hc : c ≠ .processed) (hc' : c' ≠ .processed) :
    Acc lo id c' s s1 := by
  obtain ⟨l, n, e, m, o, b, p, z⟩ := h
  exact ⟨l, n, e, m, o, b, fun h => absurd h hc', fun _ => z hc⟩

theorem Acc.lt {lo id c s s1} (h : Acc lo id c s s1) (hid : id < s.next) : id < s1.next :=
  Nat.lt_of_lt_of_le hid h.next_le

/-! ## Each function -/

theorem ethSend_acc (lo env id p d gw b) (s : St) (hid : id < s.next) :
    Acc lo id (ethSend env id p d gw b s).1 s (ethSend env id p d gw b s).2 := by
  unfold ethSend
  split
  · split
    · exact Acc.done lo id s _ hid rfl
    · exact Acc.refl lo id s (by simp)
  split
  · split
    · exact Acc.done lo id s _ hid rfl
    · exact Acc.refl lo id s (by simp)
  · exact Acc.done lo id s _ hid rfl

theorem addEth_acc (lo env id p d gw) (s : St) (hid : id < s.next) :
    Acc lo id (addEth env id p d gw s).1 s (addEth env id p d gw s).2 := by
  unfold addEth
  simp only
  split
  · exact Acc.refl lo id s (by simp)
  split
  · exact ethSend_acc lo env id _ d _ _ s hid
  split
  · exact ethSend_acc lo env id _ d _ _ s hid
  split
  · exact ethSend_acc lo env id _ d _ _ s hid
  have hn : Acc lo id .drop s (s.emit (.arp d (hop gw (trimTail p)))) :=
    Acc.note lo id s _ (by simp) rfl (by intro j; simp)
  split
  · exact hn.trans (by simp) hid (Acc.done lo id _ _ (hn.lt hid) rfl)
  · exact hn

theorem outContinue_acc (lo env id p d gw ins) (s : St) (hid : id < s.next) :
    Acc lo id (outContinue env id p d gw ins s).1 s (outContinue env id p d gw ins s).2 := by
  unfold outContinue
  simp only
  by_cases hk : (env.dev d).kind = .gre
  · rw [if_pos hk]
    by_cases ht : env.tunnelOk id
    · rw [if_pos ht]; exact Acc.done lo id s _ hid rfl
    · rw [if_neg ht]; exact Acc.refl lo id s (by simp)
  · rw [if_neg hk]; exact addEth_acc lo env id _ d gw s hid

theorem ethSend_not_cont (env id p d gw b) (s : St) : (ethSend env id p d gw b s).1 ≠ Code.cont := by
  unfold ethSend
  repeat' split
  all_goals simp

theorem addEth_not_cont (env id p d gw) (s : St) : (addEth env id p d gw s).1 ≠ Code.cont := by
  unfold addEth
  simp only
  repeat' split
  all_goals first | exact ethSend_not_cont env id _ d _ _ s | simp

theorem outContinue_not_cont (env id p d gw ins) (s : St) : (outContinue env id p d gw ins s).1 ≠ .cont := by
  unfold outContinue
  simp only
  by_cases hk : (env.dev d).kind = .gre
  · rw [if_pos hk]; split <;> simp
  · rw [if_neg hk]; exact addEth_not_cont env id _ d gw s

theorem next_alloc (s : St) : s.next < s.alloc.next := Nat.lt_succ_self _

theorem sendFrags_acc (lo env id p d gw) : ∀ (fs : List Frag.Fragment) (pos : Nat) (s : St), id < s.next →
    Acc lo id (sendFrags env id p d gw fs pos s).1 s (sendFrags env id p d gw fs pos s).2
  | [], pos, s, hid => Acc.done lo id s _ hid rfl
  | f :: fs, pos, s, hid => by
    unfold sendFrags
    simp only
    by_cases ha : env.allocOk s.next = false
    · rw [if_pos ha]; exact Acc.refl lo id s (by simp)
    rw [if_neg ha]
    by_cases hb : p.body.length < pos + f.data.length
    · rw [if_pos hb]; exact Acc.alloc hid (Acc.done lo _ _ _ (next_alloc s) rfl)
    rw [if_neg hb]
    have hq := outContinue_acc lo env s.next (fragPkt p f) d gw true s.alloc (next_alloc s)
    have hc := outContinue_not_cont env s.next (fragPkt p f) d gw true s.alloc
    generalize outContinue env s.next (fragPkt p f) d gw true s.alloc = r at hq hc ⊢
    by_cases h : r.1 = .drop
    · rw [if_pos h]
      exact Acc.alloc hid (hq.free (by rw [h]; simp) (next_alloc s))
    · rw [if_neg h]
      have hp : r.1 = .processed := by
        cases hr : r.1 with
        | cont => exact absurd hr hc
        | drop => exact absurd hr h
        | processed => rfl
      rw [hp] at hq
      have h1 := Acc.alloc hid hq
      exact h1.trans (by simp) hid (sendFrags_acc lo env id p d gw fs _ r.2 (h1.lt hid))

/-- Does fragmentation of this packet end (see C24)? -/
def fragEnds (env : Env) (p : Pkt) (d : Nat) : Prop :=
  Frag.fragment (env.dev d).mtu p.opts p.hdr.off
    ((p.body ++ List.replicate (p.hdr.len - p.hlen) 0).take (p.hdr.len - p.hlen)) ≠ none

theorem fragmentPkt_acc (lo env id p d gw) (s : St) (hid : id < s.next) (hf : lo = true → fragEnds env p d) :
    Acc lo id (fragmentPkt env id p d gw s).1 s (fragmentPkt env id p d gw s).2 := by
  unfold fragmentPkt
  simp only
  split
  · next h =>
    cases lo with
    | true => exact absurd h (hf rfl)
    | false => exact (Acc.note false id (c := .drop) s _ (by simp) rfl (by intro j; simp)).forget
  · exact sendFrags_acc lo env id p d gw _ 0 s hid

/-- The datagram fits every interface. -/
def Small (env : Env) (p : Pkt) : Prop := ∀ d, p.hdr.len ≤ (env.dev d).mtu

/-- Accounting of an output function. -/
def OutAcc (lo : Bool) (env : Env) (out : Out) : Prop :=
  ∀ id p nh s, id < s.next → (lo = true → Small env p) → Acc lo id (out id p nh s).1 s (out id p nh s).2

/-- The output function accepts every packet that fits. -/
def OutOk (env : Env) (out : Out) : Prop :=
  ∀ id p nh s, Small env p → (∀ n, nh = some n → n.dev.isSome) → (out id p nh s).1 = .processed

/-- Every address is routed, through an interface that exists. -/
def Routed (env : Env) : Prop := ∀ vrf a, ∃ n, env.route vrf a = some n ∧ n.dev.isSome

theorem fillIcmp_hdr (env p) : (fillIcmp env p).hdr = p.hdr := by
  unfold fillIcmp; simp only; split <;> rfl

theorem fillIcmp_opts (env p) : (fillIcmp env p).opts = p.opts := by
  unfold fillIcmp; simp only; split <;> rfl

theorem fillIcmp_dev (env p) : (fillIcmp env p).dev = p.dev := by
  unfold fillIcmp; simp only; split <;> rfl

theorem reflectSend_acc {lo env out id p srcA nh} {s : St} (hid : id < s.next) (ho : OutAcc lo env out)
    (hok : lo = true → OutOk env out) (hsm : lo = true → ∀ d, (p.hdr.len + 65536 - p.opts.length) % 65536 ≤ (env.dev d).mtu)
    (hnh : lo = true → ∀ n, nh = some n → n.dev.isSome) :
    Acc lo id (reflectSend env out id p srcA nh s).1 s (reflectSend env out id p srcA nh s).2 := by
  unfold reflectSend
  have hs : lo = true → Small env (fillIcmp env (replyPkt p srcA)) := by
    intro h d
    rw [fillIcmp_hdr]
    exact hsm h d
  have h := ho id (fillIcmp env (replyPkt p srcA)) nh s hid hs
  cases lo with
  | false => exact h.forget
  | true => rw [hok rfl id _ nh s (hs rfl) (hnh rfl)] at h; exact h

theorem reflect_acc {lo env out id p} {s : St} (hid : id < s.next) (ho : OutAcc lo env out)
    (hok : lo = true → OutOk env out) (hsm : lo = true → ∀ d, (p.hdr.len + 65536 - p.opts.length) % 65536 ≤ (env.dev d).mtu)
    (_hr : lo = true → Routed env) :
    Acc lo id (reflect env out id p s).1 s (reflect env out id p s).2 := by
  unfold reflect
  split
  · exact reflectSend_acc hid ho hok hsm (by simp)
  split
  · split
    · exact reflectSend_acc hid ho hok hsm (by simp)
    · exact Acc.refl lo id s (by simp)
  · next nh hn =>
    split
    · exact Acc.note lo id s _ (by simp) rfl (by intro j; simp)
    · next d hd =>
      refine reflectSend_acc hid ho hok hsm ?_
      intro _ n e
      cases e
      rw [hd]; rfl

theorem reflect_processed {env out id p} {s : St} (hr : Routed env) : (reflect env out id p s).1 = .processed := by
  unfold reflect
  split
  · rfl
  split
  · next h =>
    obtain ⟨n, e, _⟩ := hr (env.dev p.dev).vrf p.hdr.src
    rw [h] at e; cases e
  · next nh h =>
    obtain ⟨n, e, hd⟩ := hr (env.dev p.dev).vrf p.hdr.src
    rw [h] at e; cases e
    split
    · next h => rw [h] at hd; cases hd
    · rfl

/-- Conditions under which the ICMP code loses no buffer. -/
structure Good (env : Env) (out : Out) : Prop where
  ok : OutOk env out
  routed : Routed env
  mtu : ∀ d, 96 ≤ (env.dev d).mtu

theorem icmpError_acc {lo env out id p t c dst mtu} {s : St} (hid : id < s.next) (ho : OutAcc lo env out)
    (hg : lo = true → Good env out) (hop : lo = true → p.opts.length ≤ 40) :
    Acc lo id .drop s (icmpError env out p t c dst mtu s) := by
  unfold icmpError
  split
  · exact Acc.refl lo id s (by simp)
  split
  · exact Acc.refl lo id s (by simp)
  · simp only
    refine Acc.alloc hid ?_
    have hn : Acc lo s.next .drop s.alloc
        (if p.bytes.length < 2 * p.hlen + 16 then s.alloc.emit (.outside s.next) else s.alloc) := by
      split
      · exact Acc.note lo _ _ _ (by simp) rfl (by intro j; simp)
      · exact Acc.refl lo _ _ (by simp)
    generalize (if p.bytes.length < 2 * p.hlen + 16 then s.alloc.emit (.outside s.next) else s.alloc) = s1 at hn ⊢
    have h := reflect_acc (lo := lo) (env := env) (out := out) (id := s.next)
      (p := errPkt env (fillSum env p) t c dst mtu) (s := s1) (hn.lt (next_alloc s)) ho (fun h => (hg h).ok)
      (by
        intro hl d
        have h1 := hop hl
        have h2 := (hg hl).mtu d
        show ((2 * (20 + p.opts.length) + 16) % 65536 + 65536 - p.opts.length) % 65536 ≤ _
        omega)
      (fun h => (hg h).routed)
    cases lo with
    | false => exact hn.trans (by simp) (next_alloc s) h.forget
    | true =>
      rw [reflect_processed (hg rfl).routed] at h
      exact hn.trans (by simp) (next_alloc s) h

/-- Accounting of the "fragmentation needed" errors. -/
def ErrAcc (lo : Bool) (err : Pkt → Nat → St → St) : Prop :=
  ∀ id p mtu s, id < s.next → (lo = true → p.opts.length ≤ 40) → Acc lo id .drop s (err p mtu s)

theorem findRoute_pkt {env p nh n d q} (h : findRoute env p nh = some (n, d, q)) :
    q.opts = p.opts ∧ q.body = p.body ∧ q.dev = p.dev ∧
      ∃ a, q.hdr = { p.hdr with src := a } ∧ (p.hdr.src ≠ 0 → a = p.hdr.src) ∧ (p.hdr.src = 0 → a = (env.dev d).addr) := by
  unfold findRoute at h
  split at h
  · cases h
  split at h
  · cases h
  by_cases hs : p.hdr.src = 0
  · rw [if_pos hs] at h; cases h
    exact ⟨rfl, rfl, rfl, _, rfl, fun h => absurd hs h, fun _ => rfl⟩
  · rw [if_neg hs] at h; cases h
    exact ⟨rfl, rfl, rfl, p.hdr.src, rfl, fun _ => rfl, fun h => absurd h hs⟩

theorem outRoute_acc {lo env err id p nh l} {s : St} (hid : id < s.next) (he : ErrAcc lo err)
    (ho : lo = true → p.opts.length ≤ 40) (hf : lo = true → ∀ d, (env.dev d).mtu < p.hdr.len → fragEnds env p d) :
    Acc lo id (outRoute env err id p nh l s).1 s (outRoute env err id p nh l s).2 := by
  unfold outRoute
  split
  · exact Acc.refl lo id s (by simp)
  · next n d q h =>
    obtain ⟨h1, h2, h3, a, h4, h5⟩ := findRoute_pkt h
    have e1 : (outPkt env id l q).opts = p.opts := by unfold outPkt; split <;> exact h1
    have e2 : (outPkt env id l q).hdr.len = p.hdr.len := by unfold outPkt; split <;> (try unfold setId) <;> simp [h4]
    have e3 : (outPkt env id l q).hdr.off = p.hdr.off := by unfold outPkt; split <;> (try unfold setId) <;> simp [h4]
    have e4 : (outPkt env id l q).body = p.body := by unfold outPkt; split <;> exact h2
    by_cases hm : (outPkt env id l q).hdr.len > (env.dev d).mtu
    · rw [if_pos hm]
      by_cases hd : df (outPkt env id l q)
      · rw [if_pos hd]
        exact he id _ _ s hid (fun h => by rw [e1]; exact ho h)
      · rw [if_neg hd]
        refine fragmentPkt_acc lo env id _ d _ s hid ?_
        intro hl
        have := hf hl d (by omega)
        unfold fragEnds at this ⊢
        rw [e1, e2, e3, e4]
        unfold Pkt.hlen
        rw [e1]
        exact this
    · rw [if_neg hm]
      exact outContinue_acc lo env id _ d _ l s hid

theorem outCommon_acc {lo env err id p nh l sa} {s : St} (hid : id < s.next) (he : ErrAcc lo err)
    (ho : lo = true → p.opts.length ≤ 40) (hf : lo = true → ∀ d, (env.dev d).mtu < p.hdr.len → fragEnds env p d) :
    Acc lo id (outCommon env err id p nh l sa s).1 s (outCommon env err id p nh l sa s).2 := by
  unfold outCommon
  split
  · exact Acc.refl lo id s (by simp)
  · exact Acc.done lo id s _ hid rfl
  · split
    · exact Acc.refl lo id s (by simp)
    · exact Acc.done lo id s _ hid rfl
    · exact outRoute_acc hid he ho hf

/-- Nothing fails on the way out: allocation, transmission, ARP queue, tunnels; hooks and IPsec do not drop. -/
structure Healthy (env : Env) : Prop where
  hook : ∀ p, env.hookOut p ≠ .drop
  sa : ∀ p, env.ipsecOut p ≠ .discard ∧ env.ipsecOut p ≠ .protect .drop
  routed : Routed env
  mtu : ∀ d, 96 ≤ (env.dev d).mtu
  save : ∀ i, env.saveOk i = true
  loop : ∀ i, env.loopOk i = true
  tunnel : ∀ i, env.tunnelOk i = true
  room : ∀ i, env.roomOk i = true

theorem ethSend_ok {env id p d gw b} {s : St} (h : Healthy env) : (ethSend env id p d gw b s).1 = .processed := by
  unfold ethSend
  rw [h.loop, h.tunnel]
  repeat' split
  all_goals first | rfl | (exfalso; contradiction)

theorem addEth_ok {env id p d gw} {s : St} (h : Healthy env) : (addEth env id p d gw s).1 = .processed := by
  unfold addEth
  simp only
  rw [h.save, h.room]
  repeat' split
  all_goals first | exact ethSend_ok h | rfl | (exfalso; contradiction)

theorem outContinue_ok {env id p d gw b} {s : St} (h : Healthy env) : (outContinue env id p d gw b s).1 = .processed := by
  unfold outContinue
  simp only
  rw [h.tunnel, if_pos rfl]
  by_cases hk : (env.dev d).kind = .gre
  · rw [if_pos hk]
  · rw [if_neg hk]; exact addEth_ok h

theorem ipOutput_ok (env : Env) (h : Healthy env) (n : Nat) : OutOk env (ipOutput env (n + 1)) := by
  intro id p nh s hs hn
  unfold ipOutput
  have h1 := (h.sa p).1
  have h2 := (h.sa p).2
  have main : ∀ sa, sa ≠ .discard → sa ≠ .protect .drop → ∀ err,
      (outCommon env err id p nh true sa s).1 = .processed := by
    intro sa h1 h2 err
    unfold outCommon
    have h3 := h.hook p
    split
    · contradiction
    · rfl
    · split
      · contradiction
      · rfl
      · unfold outRoute
        have : ∃ n d, pickNh env p nh = some n ∧
            n.dev = some d := by
          cases nh with
          | none =>
            obtain ⟨n, e, e'⟩ := h.routed (env.dev p.dev).vrf p.hdr.dst
            obtain ⟨d, e'⟩ := Option.isSome_iff_exists.1 e'
            exact ⟨n, d, e, e'⟩
          | some n =>
            obtain ⟨d, e'⟩ := Option.isSome_iff_exists.1 (hn n rfl)
            exact ⟨n, d, rfl, e'⟩
        obtain ⟨n, d, e, e'⟩ := this
        split
        · next hf =>
          unfold findRoute at hf
          rw [e] at hf
          simp only [e'] at hf
          cases hf
        · next n' d' q hf =>
          obtain ⟨_, _, _, a, h4, _⟩ := findRoute_pkt hf
          have e2 : (outPkt env id true q).hdr.len = p.hdr.len := by unfold outPkt setId; simp [h4]
          rw [if_neg (by rw [e2]; have := hs d'; omega)]
          exact outContinue_ok h
  split
  · contradiction
  · exact main _ h1 h2 _

theorem ipOutput_acc (lo : Bool) (env : Env) : ∀ n, (lo = true → Healthy env ∧ 0 < n) → OutAcc lo env (ipOutput env n) := by
  intro n
  induction n with
  | zero =>
    intro hh id p nh s hid hs
    cases lo with
    | true => exact absurd (hh rfl).2 (by omega)
    | false => exact Acc.note false id s _ (by unfold ipOutput; simp) rfl (by intro j; simp)
  | succ n ih =>
    intro hh id p nh s hid hs
    unfold ipOutput
    -- under exactness the packet fits, so no error is generated and nothing is fragmented
    have main : ∀ sa, Acc lo id
        (outCommon env (fun p mtu s => icmpError env (ipOutput env n) p 3 4 0 mtu s) id p nh true sa s).1 s
        (outCommon env (fun p mtu s => icmpError env (ipOutput env n) p 3 4 0 mtu s) id p nh true sa s).2 := by
      intro sa
      cases lo with
      | false =>
        refine outCommon_acc hid ?_ (by simp) (by simp)
        intro id' p' mtu s' hid' _
        exact icmpError_acc hid' (ih (by simp)) (by simp) (by simp)
      | true =>
        have hs := hs rfl
        unfold outCommon
        split
        · exact Acc.refl true id s (by simp)
        · exact Acc.done true id s _ hid rfl
        split
        · exact Acc.refl true id s (by simp)
        · exact Acc.done true id s _ hid rfl
        · unfold outRoute
          split
          · exact Acc.refl true id s (by simp)
          · next n' d' q hf =>
            obtain ⟨_, _, _, a, h4, _⟩ := findRoute_pkt hf
            have e2 : (outPkt env id true q).hdr.len = p.hdr.len := by unfold outPkt setId; simp [h4]
            simp only
            rw [if_neg (by rw [e2]; have := hs d'; omega)]
            exact outContinue_acc true env id _ _ _ _ s hid
    split
    · exact Acc.refl lo id s (by simp)
    · exact main _

end Verif.Fwd
