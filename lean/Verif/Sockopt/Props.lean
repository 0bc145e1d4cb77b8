import Verif.Sockopt.Model
/-!
# Properties of socket options
-/
namespace Verif.Sockopt
open Verif.Sysctl (ofInt toInt toInt_ofInt)

/-! ## Specification -/

/-- An option reads the same on two sockets. -/
def ReadsSame (s s' : Sock) (l : Level) : Prop :=
  ∀ n, (getsockopt s l n).err = (getsockopt s' l n).err ∧ (getsockopt s l n).out = (getsockopt s' l n).out ∧
    (getsockopt s l n).len = (getsockopt s' l n).len

/-- Reading an option of one `int` gives `v`. -/
def ReadsInt (s : Sock) (o : Opt) (v : Int) : Prop :=
  ∀ n, 4 ≤ n → ∃ b, (getsockopt s (.sock o) n).err = none ∧ (getsockopt s (.sock o) n).out = b ∧
    (getsockopt s (.sock o) n).len = 4 ∧ b.length = 4 ∧ toInt b = v

theorem readsSame_sock {s s' : Sock} (h : ∀ o, valueOf s o = valueOf s' o) (hp : s.proto = s'.proto) (l : Level) :
    ReadsSame s s' l := by
  intro n
  cases l with
  | sock o => simp only [getsockopt, h o]; split <;> exact ⟨rfl, rfl, rfl⟩
  | ip m => simp only [getsockopt, hp]; split <;> exact ⟨rfl, rfl, rfl⟩
  | tcp m => simp only [getsockopt, hp]; split <;> exact ⟨rfl, rfl, rfl⟩
  | udp m => simp only [getsockopt, hp]; split <;> exact ⟨rfl, rfl, rfl⟩
  | other a m => simp only [getsockopt, hp]; split <;> exact ⟨rfl, rfl, rfl⟩

theorem readsSame_but {s s' : Sock} {P : Opt → Prop} (h : ∀ o, ¬ P o → valueOf s o = valueOf s' o) (hp : s.proto = s'.proto)
    (l : Level) (hl : ∀ o, l = .sock o → ¬ P o) : ReadsSame s s' l := by
  intro n
  cases l with
  | sock o => simp only [getsockopt, h o (hl o rfl)]; split <;> exact ⟨rfl, rfl, rfl⟩
  | ip m => simp only [getsockopt, hp]; split <;> exact ⟨rfl, rfl, rfl⟩
  | tcp m => simp only [getsockopt, hp]; split <;> exact ⟨rfl, rfl, rfl⟩
  | udp m => simp only [getsockopt, hp]; split <;> exact ⟨rfl, rfl, rfl⟩
  | other a m => simp only [getsockopt, hp]; split <;> exact ⟨rfl, rfl, rfl⟩

theorem ofInt_length (i : Int) : (ofInt i).length = 4 := rfl

theorem take_ofInt (i : Int) {n : Nat} (h : 4 ≤ n) : (ofInt i).take n = ofInt i := by
  rw [List.take_of_length_le]; rw [ofInt_length]; exact h

theorem readsInt {s : Sock} {o : Opt} {v : Int} (h : valueOf s o = .ok (ofInt v)) (h0 : -2147483648 ≤ v)
    (h1 : v < 2147483648) : ReadsInt s o v := by
  intro n hn
  refine ⟨ofInt v, ?_, ?_, ?_, ofInt_length _, toInt_ofInt h0 h1⟩ <;> simp only [getsockopt, h]
  · exact take_ofInt _ hn
  · rw [ofInt_length]; omega

theorem copyin_some {n : Nat} {b : List UInt8} (h : n ≤ b.length) : copyin n b = some (b.take n) := by
  unfold copyin; rw [if_neg (by omega)]

theorem copyin_none {n : Nat} {b : List UInt8} (h : b.length < n) : copyin n b = none := by
  unfold copyin; rw [if_pos h]

/-! ## Flags -/

/-- Options that are switched on and off. -/
def Switch (f : Flag) : Prop := f ≠ .acceptconn ∧ f ≠ .noDdp ∧ f ≠ .noOffload

theorem setSock_flag (e : Env) (s : Sock) {f : Flag} (hf : f ≠ .acceptconn) (b : List UInt8) :
    setSock e s (.flag f) b = match copyin 4 b with
      | none => (some .inval, s)
      | some v => (none, { s with flags := fun g => if g = f then toInt v != 0 else s.flags g }) := by
  cases f <;> first | rfl | exact absurd rfl hf

theorem valueOf_flag (s : Sock) {f : Flag} (hf : f ≠ .noDdp ∧ f ≠ .noOffload) :
    valueOf s (.flag f) = .ok (ofInt (if s.flags f then f.mask else 0)) := by
  cases f <;> first | rfl | exact absurd rfl hf.1 | exact absurd rfl hf.2

theorem mask_bounds (f : Flag) : 0 < f.mask ∧ f.mask < 65536 := by cases f <;> decide

/-- **C219**: an option that is switched: a value that is too short is refused; otherwise the option reads as 0 if the
value was 0, as another number if not, and every other option reads as before. -/
theorem flag_partial (e : Env) (s : Sock) {f : Flag} (hf : Switch f) (b : List UInt8) :
    (b.length < 4 → (setsockopt e s (.sock (.flag f)) b).err = some .inval ∧
      (setsockopt e s (.sock (.flag f)) b).sock = s) ∧
    (4 ≤ b.length → (setsockopt e s (.sock (.flag f)) b).err = none ∧
      (∃ v, ReadsInt (setsockopt e s (.sock (.flag f)) b).sock (.flag f) v ∧ (v = 0 ↔ toInt (b.take 4) = 0)) ∧
      ∀ l, l ≠ .sock (.flag f) → ReadsSame s (setsockopt e s (.sock (.flag f)) b).sock l) := by
  simp only [setsockopt, setSock_flag e s hf.1]
  constructor
  · intro h
    rw [copyin_none h]
    exact ⟨rfl, rfl⟩
  · intro h
    rw [copyin_some h]
    refine ⟨rfl, ⟨if toInt (b.take 4) ≠ 0 then f.mask else 0, ?_, ?_⟩, ?_⟩
    · refine readsInt ?_ ?_ ?_
      · rw [valueOf_flag _ hf.2]
        by_cases hz : toInt (b.take 4) = 0 <;> simp [hz]
      · have := mask_bounds f; split <;> omega
      · have := mask_bounds f; split <;> omega
    · have := mask_bounds f
      by_cases hz : toInt (b.take 4) = 0
      · simp [hz]
      · simp [hz]; omega
    · intro l hl
      refine readsSame_but (P := fun o => o = .flag f) ?_ (by rfl) l (by rintro o rfl h; exact hl (by rw [h]))
      intro o ho
      cases o with
      | flag g =>
        have hg : g ≠ f := fun h => ho (by rw [h])
        cases g <;> simp [valueOf, hg]
      | _ => rfl

/-- **C219, violated**: these options are set with success and cannot be read. -/
theorem unreadable_violated (e : Env) (s : Sock) (o : Opt)
    (ho : o = .flag .noDdp ∨ o = .flag .noOffload ∨ o = .setfib ∨ o = .cookie) (b : List UInt8) (hb : 4 ≤ b.length)
    (h0 : 0 ≤ toInt (b.take 4)) (h1 : toInt (b.take 4) < 4096) (n : Nat) :
    (setsockopt e s (.sock o) b).err = none ∧
    (getsockopt (setsockopt e s (.sock o) b).sock (.sock o) n).err = some .noprotoopt := by
  have hl : ¬ b.length < 4 := by omega
  have hc : ¬ (toInt (b.take 4) < 0 ∨ toInt (b.take 4) ≥ 4096) := by omega
  rcases ho with rfl | rfl | rfl | rfl
  · simp only [setsockopt, setSock, copyin_some hb, getsockopt, valueOf]; first | exact ⟨rfl, rfl⟩ | exact ⟨trivial, trivial⟩
  · simp only [setsockopt, setSock, copyin_some hb, getsockopt, valueOf]; first | exact ⟨rfl, rfl⟩ | exact ⟨trivial, trivial⟩
  · simp only [setsockopt, setSock, copyin_some hb, getsockopt, valueOf, if_neg hc, if_neg hl]; first | exact ⟨rfl, rfl⟩ | exact ⟨trivial, trivial⟩
  · simp only [setsockopt, setSock, copyin_some hb, getsockopt, valueOf]; first | exact ⟨rfl, rfl⟩ | exact ⟨trivial, trivial⟩

/-! ## Buffer sizes and low-water marks -/

theorem max_le (e : Env) : e.max ≤ sbMax := by
  unfold Env.max
  apply Nat.div_le_of_le_mul
  rw [Nat.mul_comm]
  exact Nat.mul_le_mul_right _ (by omega)

/-- Both buffers: the low-water mark is at least 1 and not above the size; the size is within the limit. -/
def Buf.Ok (e : Env) (b : Buf) : Prop := 1 ≤ b.lowat ∧ b.lowat ≤ b.hiwat ∧ b.hiwat ≤ e.max

theorem reserve_ok {e : Env} {b b' : Buf} (h : b.Ok e) {cc : Nat} (hc : 1 ≤ cc) (hr : reserve e b cc = some b') :
    b'.Ok e ∧ b'.hiwat = cc ∧ cc ≤ e.max ∧ b'.lowat = min b.lowat cc ∧ b'.timeo = b.timeo := by
  unfold reserve at hr
  split at hr
  · simp at hr
  · rename_i hm
    have hr := Option.some.inj hr
    subst hr
    obtain ⟨h1, h2, h3⟩ := h
    refine ⟨⟨?_, ?_, ?_⟩, rfl, by omega, ?_, rfl⟩
    · show 1 ≤ (if b.lowat > (cc : Int) then (cc : Int) else b.lowat)
      split <;> omega
    · show (if b.lowat > (cc : Int) then (cc : Int) else b.lowat) ≤ (cc : Int)
      split <;> omega
    · show cc ≤ e.max
      omega
    · show (if b.lowat > (cc : Int) then (cc : Int) else b.lowat) = min b.lowat cc
      split <;> omega

/-- Sockets that can be: made with sizes (of at least 1, within the limit), then any history; or accepted. -/
inductive Reach (e : Env) : Sock → Prop where
  | fresh {p : Proto} {t q : Nat} {snd rcv : Nat} {s : Sock} : 1 ≤ snd → 1 ≤ rcv → soreserve e (blank p t q) snd rcv = some s →
      Reach e s
  | step {s : Sock} (ev : Ev) : Reach e s → Reach e (step e s ev)
  | accepted {h s : Sock} : Reach e h → newconn e h = some s → Reach e s

theorem setSock_ok {e : Env} {s : Sock} (h : s.snd.Ok e ∧ s.rcv.Ok e) (o : Opt) (b : List UInt8) :
    (setSock e s o b).2.snd.Ok e ∧ (setSock e s o b).2.rcv.Ok e := by
  cases o with
  | sndbuf =>
    simp only [setSock]
    split
    · exact h
    · rename_i v _
      split
      · exact h
      · rename_i hv
        split
        · exact h
        · rename_i x hx
          exact ⟨(reserve_ok h.1 (by omega) hx).1, h.2⟩
  | rcvbuf =>
    simp only [setSock]
    split
    · exact h
    · rename_i v _
      split
      · exact h
      · rename_i hv
        split
        · exact h
        · rename_i x hx
          exact ⟨h.1, (reserve_ok h.2 (by omega) hx).1⟩
  | sndlowat =>
    simp only [setSock]
    split
    · exact h
    · split
      · exact h
      · refine ⟨⟨?_, ?_, h.1.2.2⟩, h.2⟩ <;> (have := h.1.1; have := h.1.2.1; simp only; split <;> omega)
  | rcvlowat =>
    simp only [setSock]
    split
    · exact h
    · split
      · exact h
      · refine ⟨h.1, ⟨?_, ?_, h.2.2.2⟩⟩ <;> (have := h.2.1; have := h.2.2.1; simp only; split <;> omega)
  | flag f =>
    by_cases hf : f = .acceptconn
    · subst hf; exact h
    · rw [setSock_flag e s hf]; split <;> exact h
  | linger => simp only [setSock]; split <;> exact h
  | setfib =>
    simp only [setSock]
    repeat' split
    all_goals exact h
  | cookie => simp only [setSock]; split <;> exact h
  | sndtimeo =>
    simp only [setSock]
    split
    · exact h
    · split
      · exact h
      · exact ⟨⟨h.1.1, h.1.2.1, h.1.2.2⟩, h.2⟩
  | rcvtimeo =>
    simp only [setSock]
    split
    · exact h
    · split
      · exact h
      · exact ⟨h.1, ⟨h.2.1, h.2.2.1, h.2.2.2⟩⟩
  | _ => exact h

theorem setTcp_same (s : Sock) (name : Nat) (b : List UInt8) :
    ∃ x, (setTcp s name b).sock = { s with nopush := x } := by
  unfold setTcp
  repeat' split
  all_goals first | exact ⟨s.nopush, rfl⟩ | exact ⟨_, rfl⟩

theorem setsockopt_bufs (e : Env) (s : Sock) (l : Level) (hl : ∀ o, l ≠ .sock o) (b : List UInt8) :
    ∃ x k, (setsockopt e s l b).sock = { s with nopush := x, held := k } := by
  cases l with
  | sock o => exact absurd rfl (hl o)
  | tcp name =>
    simp only [setsockopt]
    split
    · exact ⟨s.nopush, s.held, rfl⟩
    · obtain ⟨x, h⟩ := setTcp_same s name b; exact ⟨x, s.held, h⟩
    · exact ⟨s.nopush, s.held, rfl⟩
  | ip name => simp only [setsockopt]; split <;> exact ⟨s.nopush, s.held, rfl⟩
  | udp name => simp only [setsockopt]; split <;> exact ⟨s.nopush, _, rfl⟩
  | other a name => simp only [setsockopt]; split <;> exact ⟨s.nopush, s.held, rfl⟩

theorem getsockopt_sock (s : Sock) (l : Level) (n : Nat) :
    ∃ x k, (getsockopt s l n).sock = { s with err := x, held := k } := by
  cases l with
  | sock o =>
    simp only [getsockopt]
    split
    · exact ⟨s.err, s.held, rfl⟩
    · split
      · exact ⟨0, s.held, rfl⟩
      · exact ⟨s.err, s.held, rfl⟩
  | ip m => simp only [getsockopt]; split <;> exact ⟨s.err, s.held, rfl⟩
  | tcp m => simp only [getsockopt]; split <;> exact ⟨s.err, s.held, rfl⟩
  | udp m => simp only [getsockopt]; split <;> exact ⟨s.err, _, rfl⟩
  | other a m => simp only [getsockopt]; split <;> exact ⟨s.err, s.held, rfl⟩

theorem step_ok {e : Env} {s : Sock} (h : s.snd.Ok e ∧ s.rcv.Ok e) (ev : Ev) :
    (step e s ev).snd.Ok e ∧ (step e s ev).rcv.Ok e := by
  cases ev with
  | set l b =>
    by_cases hl : ∃ o, l = .sock o
    · obtain ⟨o, rfl⟩ := hl; exact setSock_ok h o b
    · obtain ⟨x, k, hx⟩ := setsockopt_bufs e s l (fun o ho => hl ⟨o, ho⟩) b
      simp only [step, hx]; exact h
  | get l n => obtain ⟨x, k, hx⟩ := getsockopt_sock s l n; simp only [step, hx]; exact h
  | _ => exact h

theorem soreserve_ok {e : Env} {s s' : Sock} {snd rcv : Nat} (h0 : s.snd.lowat = 0) (h1 : s.rcv.lowat = 0)
    (hs : 1 ≤ snd) (hr : 1 ≤ rcv) (hb : 1 ≤ e.bufsize) (h : soreserve e s snd rcv = some s') :
    s'.snd.Ok e ∧ s'.rcv.Ok e ∧ s'.snd.hiwat = snd ∧ s'.rcv.hiwat = rcv := by
  unfold soreserve reserve at h
  rw [h0, h1] at h
  by_cases ha : snd > e.max
  · rw [if_pos ha] at h; simp at h
  · by_cases hc : rcv > e.max
    · rw [if_pos hc] at h; simp at h
    · have hs' : ¬ ((0 : Int) > snd) := by omega
      have hr' : ¬ ((0 : Int) > rcv) := by omega
      simp only [if_neg ha, if_neg hc, if_neg hs', if_neg hr', if_true] at h
      have h := Option.some.inj h
      subst h
      refine ⟨⟨?_, ?_, ?_⟩, ⟨?_, ?_, ?_⟩, ?_, ?_⟩ <;> simp only <;> (try split) <;> simp_all <;> omega

theorem reach_ok {e : Env} (hb : 1 ≤ e.bufsize) {s : Sock} (h : Reach e s) : s.snd.Ok e ∧ s.rcv.Ok e := by
  induction h with
  | fresh hs hr h =>
    obtain ⟨a, b, _⟩ := soreserve_ok (by rfl) (by rfl) hs hr hb h
    exact ⟨a, b⟩
  | step ev _ ih => exact step_ok ih ev
  | @accepted l s _ h ih =>
    unfold newconn at h
    split at h
    · simp at h
    · rename_i s0 h0
      have h := Option.some.inj h
      obtain ⟨a1, a2, a3⟩ := ih.1
      obtain ⟨b1, b2, b3⟩ := ih.2
      obtain ⟨_, _, h3, h4⟩ := soreserve_ok (by rfl) (by rfl) (by omega) (by omega) hb h0
      subst h
      refine ⟨⟨a1, ?_, ?_⟩, ⟨b1, ?_, ?_⟩⟩ <;> simp only [h3, h4] <;> assumption

/-- **C220**: in every history, the low-water marks are at least 1 and not above the sizes, and the sizes are within the
limit; so they read. -/
theorem marks_kept {e : Env} (hb : 1 ≤ e.bufsize) {s : Sock} (h : Reach e s) :
    ∃ sm sb rm rb : Int, ReadsInt s .sndlowat sm ∧ ReadsInt s .sndbuf sb ∧ ReadsInt s .rcvlowat rm ∧ ReadsInt s .rcvbuf rb ∧
      1 ≤ sm ∧ sm ≤ sb ∧ sb ≤ 2097152 ∧ 1 ≤ rm ∧ rm ≤ rb ∧ rb ≤ 2097152 := by
  obtain ⟨⟨a1, a2, a3⟩, ⟨b1, b2, b3⟩⟩ := reach_ok hb h
  have hm := max_le e
  unfold sbMax at hm
  exact ⟨s.snd.lowat, s.snd.hiwat, s.rcv.lowat, s.rcv.hiwat, readsInt rfl (by omega) (by omega), readsInt rfl (by omega) (by omega),
    readsInt rfl (by omega) (by omega), readsInt rfl (by omega) (by omega), a1, a2, by omega, b1, b2, by omega⟩

/-- **C220**: setting the size of a buffer: a number below 1, or above the limit, is refused, and nothing changes; otherwise
it is the size; a low-water mark above it is lowered to it, and every other option reads as before. -/
theorem size_exact {e : Env} (hb : 1 ≤ e.bufsize) {s : Sock} (h : Reach e s) (snd : Bool) (b : List UInt8)
    (hlen : 4 ≤ b.length) {v : Int} (hv : toInt (b.take 4) = v) :
    let o : Opt := if snd then .sndbuf else .rcvbuf
    let m : Opt := if snd then .sndlowat else .rcvlowat
    let r := setsockopt e s (.sock o) b
    (v < 1 → r.err = some .inval ∧ r.sock = s) ∧
    (1 ≤ v → e.max < v → r.err = some .nobufs ∧ r.sock = s) ∧
    (1 ≤ v → v ≤ e.max → r.err = none ∧ ReadsInt r.sock o v ∧ (∀ w, ReadsInt s m w → ReadsInt r.sock m (min w v)) ∧
      ∀ l, l ≠ .sock o → l ≠ .sock m → ReadsSame s r.sock l) := by
  obtain ⟨hs, hr⟩ := reach_ok hb h
  have hm := max_le e
  unfold sbMax at hm
  have hread : ∀ {o : Opt} {u w : Int}, ReadsInt s o w → valueOf s o = .ok (ofInt u) → -2147483648 ≤ u → u < 2147483648 → w = u := by
    intro o u w h1 h2 h3 h4
    obtain ⟨b1, _, e2, _, _, e5⟩ := h1 4 (by omega)
    obtain ⟨b2, _, e2', _, _, e5'⟩ := readsInt h2 h3 h4 4 (by omega)
    rw [← e5, ← e5', ← e2, ← e2']
  cases snd with
  | true =>
    simp only [if_true, setsockopt, setSock, copyin_some hlen, hv]
    refine ⟨fun h => by simp only [if_pos h]; exact ⟨trivial, trivial⟩, fun h1 h2 => ?_, fun h1 h2 => ?_⟩
    · have hres : reserve e s.snd v.toNat = none := by unfold reserve; rw [if_pos (by omega)]
      simp only [if_neg (show ¬ v < 1 by omega), hres]
      exact ⟨trivial, trivial⟩
    · have hres : ∃ x, reserve e s.snd v.toNat = some x := by unfold reserve; rw [if_neg (by omega)]; exact ⟨_, rfl⟩
      obtain ⟨x, hx⟩ := hres
      obtain ⟨⟨k1, k2, _⟩, k3, _, k4, k5⟩ := reserve_ok hs (by omega) hx
      have hvn : ((v.toNat : Nat) : Int) = v := by omega
      simp only [if_neg (show ¬ v < 1 by omega), hx]
      refine ⟨trivial, readsInt (by simp only [valueOf, k3, hvn]) (by omega) (by omega), fun w hw => ?_, fun l h1 h2 => ?_⟩
      · have := hread hw rfl (by have := hs.1; omega) (by have := hs.2.1; have := hs.2.2; omega)
        subst this
        refine readsInt (by simp only [valueOf, k4, hvn]) ?_ ?_
        · have := hs.1; omega
        · omega
      · refine readsSame_but (P := fun o => o = .sndbuf ∨ o = .sndlowat) ?_ (by rfl) l
          (by rintro o rfl (h | h); exact h1 (by rw [h]); exact h2 (by rw [h]))
        intro o ho
        cases o with
        | flag f => cases f <;> rfl
        | sndbuf => exact absurd (.inl rfl) ho
        | sndlowat => exact absurd (.inr rfl) ho
        | sndtimeo => simp only [valueOf, k5]
        | _ => rfl
  | false =>
    simp only [Bool.false_eq_true, if_false, setsockopt, setSock, copyin_some hlen, hv]
    refine ⟨fun h => by simp only [if_pos h]; exact ⟨trivial, trivial⟩, fun h1 h2 => ?_, fun h1 h2 => ?_⟩
    · have hres : reserve e s.rcv v.toNat = none := by unfold reserve; rw [if_pos (by omega)]
      simp only [if_neg (show ¬ v < 1 by omega), hres]
      exact ⟨trivial, trivial⟩
    · have hres : ∃ x, reserve e s.rcv v.toNat = some x := by unfold reserve; rw [if_neg (by omega)]; exact ⟨_, rfl⟩
      obtain ⟨x, hx⟩ := hres
      obtain ⟨⟨k1, k2, _⟩, k3, _, k4, k5⟩ := reserve_ok hr (by omega) hx
      have hvn : ((v.toNat : Nat) : Int) = v := by omega
      simp only [if_neg (show ¬ v < 1 by omega), hx]
      refine ⟨trivial, readsInt (by simp only [valueOf, k3, hvn]) (by omega) (by omega), fun w hw => ?_, fun l h1 h2 => ?_⟩
      · have := hread hw rfl (by have := hr.1; omega) (by have := hr.2.1; have := hr.2.2; omega)
        subst this
        refine readsInt (by simp only [valueOf, k4, hvn]) ?_ ?_
        · have := hr.1; omega
        · omega
      · refine readsSame_but (P := fun o => o = .rcvbuf ∨ o = .rcvlowat) ?_ (by rfl) l
          (by rintro o rfl (h | h); exact h1 (by rw [h]); exact h2 (by rw [h]))
        intro o ho
        cases o with
        | flag f => cases f <;> rfl
        | rcvbuf => exact absurd (.inl rfl) ho
        | rcvlowat => exact absurd (.inr rfl) ho
        | rcvtimeo => simp only [valueOf, k5]
        | _ => rfl

end Verif.Sockopt
