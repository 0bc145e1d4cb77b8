import Verif.Fwd.Content
/-! # C78: ICMP errors are not sent about ICMP errors; no recursion -/
namespace Verif.Fwd

/-- An ICMP error message: complete ICMP header, type not one of the informational ones. -/
def IsErr (q : Pkt) : Prop := q.hdr.proto = 1 ∧ 8 ≤ q.body.length ∧ infoType (q.body.headD 0).toNat = false

theorem header_length (p : Pkt) : p.header.length = p.hlen := by
  simp [Pkt.header, Pkt.hlen, b16, b32]; omega

theorem bytes_length (p : Pkt) : p.bytes.length = p.hlen + p.body.length := by
  rw [Pkt.bytes, List.length_append, header_length]

theorem mem_drop (env : Env) (p : Pkt) (k : Nat) : (p.mem env).drop (p.hlen + k) = (p.body ++ env.beyond).drop k := by
  rw [Pkt.mem, Pkt.bytes, List.append_assoc, ← header_length, ← List.drop_drop, List.drop_left]

theorem headD_append {l m : List UInt8} (h : l ≠ []) : (l ++ m).headD 0 = l.headD 0 := by
  cases l with
  | nil => exact absurd rfl h
  | cons => rfl

theorem quiet_err {env q} (h : IsErr q) : errQuiet env q 3 = true := by
  obtain ⟨h1, h2, h3⟩ := h
  unfold errQuiet
  have e := mem_drop env q 0
  rw [Nat.add_zero, List.drop_zero] at e
  rw [e, headD_append (by intro h; rw [h] at h2; simp at h2), h3, h1, bytes_length]
  simp
  right; omega

theorem quiet_frag {env q t} (h : fragOff q ≠ 0) : errQuiet env q t = true := by
  unfold errQuiet; simp [h]

theorem icmpError_quiet {env out p t c dst mtu} {s : St} (h : errQuiet env p t = true) : icmpError env out p t c dst mtu s = s := by
  unfold icmpError; rw [if_pos h]

theorem Left.isErr {env id p l d q} (h : Left env id p l d q) (he : IsErr p) : IsErr q := by
  obtain ⟨_, h2, _, a, i, h4, _⟩ := h
  unfold IsErr at *
  rw [h2, h4]
  exact he

theorem head_set (l : List UInt8) (k : Nat) (x : UInt8) : (l.set (k + 1) x).headD 0 = l.headD 0 := by
  cases l <;> rfl

theorem fillIcmp_head (env p) : (fillIcmp env p).body.headD 0 = p.body.headD 0 := by
  unfold fillIcmp
  simp only
  split <;> simp only [head_set]

theorem fillIcmp_len (env p) : (fillIcmp env p).body.length = p.body.length := by
  unfold fillIcmp
  simp only
  split <;> simp

theorem errWord_length (t c dst mtu) : (errWord t c dst mtu).length = 4 := by
  unfold errWord
  repeat' split
  all_goals rfl

theorem u8_toNat (n : Nat) : (u8 n).toNat = n % 256 := by simp [u8]

theorem errPkt_isErr (env p t c dst mtu) (ht : infoType (t % 256) = false) : IsErr (errPkt env p t c dst mtu) := by
  unfold errPkt
  refine ⟨rfl, ?_, ?_⟩
  · simp only [List.length_cons, List.length_append, errWord_length]; omega
  · simp only [List.headD_cons, u8_toNat]; exact ht

theorem reply_isErr {env p a} (h : IsErr p) : IsErr (fillIcmp env (replyPkt p a)) := by
  unfold IsErr at *
  rw [fillIcmp_hdr, fillIcmp_head, fillIcmp_len]
  exact h

/-- Two error functions that agree on ICMP errors (both do nothing) give the same result for an ICMP error. -/
theorem outCommon_err {env id p nh l sa} {f g : Pkt → Nat → St → St} {s : St} (hp : IsErr p)
    (hf : ∀ q m s, IsErr q → f q m s = s) (hg : ∀ q m s, IsErr q → g q m s = s) :
    outCommon env f id p nh l sa s = outCommon env g id p nh l sa s := by
  unfold outCommon outRoute
  split
  · rfl
  · rfl
  split
  · rfl
  · rfl
  split
  · rfl
  · next n d q h =>
    have := (findRoute_left (id := id) (l := l) h).isErr hp
    rw [hf _ _ _ this, hg _ _ _ this]

theorem ipOutput_err (env : Env) (n id p nh s) (hp : IsErr p) : ipOutput env (n + 1) id p nh s = ipOutput env 1 id p nh s := by
  unfold ipOutput
  have := fun sa => outCommon_err (env := env) (id := id) (nh := nh) (l := true) (sa := sa) (s := s) hp
    (f := fun p mtu s => icmpError env (ipOutput env n) p 3 4 0 mtu s)
    (g := fun p mtu s => icmpError env (ipOutput env 0) p 3 4 0 mtu s)
    (fun q m s hq => icmpError_quiet (quiet_err hq)) (fun q m s hq => icmpError_quiet (quiet_err hq))
  split
  · rfl
  · exact this _

theorem icmpError_congr {env p t c dst mtu} {o1 o2 : Out} {s : St} (ht : infoType (t % 256) = false)
    (h : ∀ id q nh s, IsErr q → o1 id q nh s = o2 id q nh s) :
    icmpError env o1 p t c dst mtu s = icmpError env o2 p t c dst mtu s := by
  have key : ∀ a, IsErr (fillIcmp env (replyPkt (errPkt env (fillSum env p) t c dst mtu) a)) :=
    fun a => reply_isErr (errPkt_isErr env _ t c dst mtu ht)
  unfold icmpError reflect reflectSend
  simp only [h _ _ _ _ (key _)]

/-- **C78, no recursion.** However long the chain of ICMP messages that the IP output could cause, it is cut after one
error message: nothing changes when more than two nested outputs are allowed.  (So `depth` bounds nothing that the C
recursion does.) -/
theorem no_icmp_recursion (env : Env) (n id : Nat) (p : Pkt) (nh : Option Nh) (s : St) :
    ipOutput env (n + 2) id p nh s = ipOutput env 2 id p nh s := by
  have e : (fun (p : Pkt) (mtu : Nat) (s : St) => icmpError env (ipOutput env (n + 1)) p 3 4 0 mtu s) =
      (fun p mtu s => icmpError env (ipOutput env 1) p 3 4 0 mtu s) := by
    funext p mtu s
    exact icmpError_congr (by decide) (fun id q nh s hq => ipOutput_err env n id q nh s hq)
  rw [ipOutput, ipOutput, e]

end Verif.Fwd
