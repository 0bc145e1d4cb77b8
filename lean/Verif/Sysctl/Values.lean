import Verif.Sysctl.Props
/-!
# Properties of the sysctl interface: strings and times
-/
namespace Verif.Sysctl

theorem tooLong_small {n max : Nat} (h : n < 2147483648) : tooLong n max = decide (max ≤ n) := by
  unfold tooLong wrap
  have h1 : (2 : Int) ^ 31 = 2147483648 := by decide
  have h2 : (2 : Int) ^ 32 = 4294967296 := by decide
  rw [h1, h2]
  apply decide_eq_decide.mpr
  omega

theorem tooLong_large {n max : Nat} (h : 2147483648 ≤ n) (h' : n < 4294967296) : tooLong n max = false := by
  unfold tooLong wrap
  have h1 : (2 : Int) ^ 31 = 2147483648 := by decide
  have h2 : (2 : Int) ^ 32 = 4294967296 := by decide
  rw [h1, h2]
  apply decide_eq_false
  omega

/-- Reading into a buffer with room for all of it. -/
theorem sysOut_fits (old : Option Nat) (p : List UInt8) (new : Option (List UInt8)) (hp : ∀ n, old = some n → p.length ≤ n) :
    sysOut ⟨old.isSome, old.getD 0, 0, [], new, 0⟩ p =
      (none, ⟨old.isSome, old.getD 0, p.length, readOut old p, new, 0⟩) := by
  unfold sysOut readOut
  cases old with
  | none => simp
  | some n =>
    have := hp n rfl
    simp only [Option.isSome_some, Option.getD_some]
    by_cases h0 : n = 0
    · have : p = [] := List.length_eq_zero_iff.mp (by omega)
      simp [h0, this]
    · have hm : min p.length n = p.length := by omega
      simp [h0, hm]

theorem fits_retval {old : Option Nat} {k : Nat} (hp : ∀ n, old = some n → k ≤ n) :
    ¬ (old.isSome = true ∧ k > old.getD 0) := by
  rintro ⟨a, b⟩
  cases old with
  | none => simp at a
  | some n => have := hp n rfl; simp at b; omega

/-- Reading into a buffer that is too short. -/
theorem sysOut_short {n : Nat} (p : List UInt8) (new : Option (List UInt8)) (hp : n < p.length) :
    sysOut ⟨true, n, 0, [], new, 0⟩ p = (some .nomem, ⟨true, n, p.length, p.take n, new, 0⟩) := by
  unfold sysOut
  by_cases h0 : n = 0
  · subst h0; simp; omega
  · have : min p.length n = n := by omega
    simp [this, h0]; omega

/-- The string in a buffer, without the zero: what is before the first zero. -/
def text (b : List UInt8) : List UInt8 := b.takeWhile (· ≠ 0)

theorem text_append (b r : List UInt8) : text (b ++ 0 :: r) = text b := by
  unfold text
  induction b with
  | nil => simp
  | cons x xs ih =>
    by_cases hx : x = 0
    · simp [hx]
    · simp only [List.cons_append, List.takeWhile_cons, ne_eq, hx, not_false_eq_true, decide_true, if_true] at ih ⊢
      rw [ih]

theorem cstr_poke (buf b : List UInt8) : text (poke buf (b ++ [0])) = text b := by
  unfold poke
  rw [List.append_assoc]
  exact text_append b _

theorem access_string (vs : Vars) (o : Oid) {v max : Nat} (ho : o.handler = .string v max) (old : Option Nat)
    (new : Option (List UInt8)) (hw : new = none ∨ o.write = true) :
    access vs o old new =
      (let x := doString vs v max ⟨old.isSome, old.getD 0, 0, [], new, 0⟩
       (x.2.1, ⟨x.1, x.2.2.out, if x.1 = none ∨ x.1 = some .nomem then
          some (if old.isSome ∧ x.2.2.oldidx > old.getD 0 then old.getD 0 else x.2.2.oldidx) else none⟩)) := by
  unfold access
  have hh : ¬ (o.node = true ∧ o.handler = .none) := by simp [ho]
  have hw' : ¬ (new.isSome = true ∧ o.write = false) := by
    rintro ⟨h1, h2⟩
    rcases hw with h | h
    · simp [h] at h1
    · simp [h] at h2
  simp only [if_neg hh, if_neg hw']
  rw [ho]
  rfl

/-- **C217, partial**: access to a string of at most `max` bytes with its zero.  A buffer for the old value that is too
short gets what fits.  Otherwise the string is read, with a zero.  A new string that leaves no room for the zero is
refused; another is stored, within the buffer, and is what is read from then on.  Missing: new values of 2 GB or more, see
below. -/
theorem string_partial (vs : Vars) (o : Oid) {v max : Nat} (ho : o.handler = .string v max) (hv : (vs v).length = max)
    (old : Option Nat) (new : Option (List UInt8)) (hw : new = none ∨ o.write = true)
    (hnew : ∀ b, new = some b → b.length < 2147483648) :
    (∀ n, old = some n → n ≤ (text (vs v)).length →
      access vs o old new = (vs, ⟨some .nomem, (text (vs v) ++ [0]).take n, some n⟩)) ∧
    ((∀ n, old = some n → (text (vs v)).length < n) →
      (new = none → access vs o old new =
        (vs, ⟨none, readOut old (text (vs v) ++ [0]), some ((text (vs v)).length + 1)⟩)) ∧
      (∀ b, new = some b → max ≤ b.length →
        access vs o old new = (vs, ⟨some .inval, readOut old (text (vs v) ++ [0]), none⟩)) ∧
      (∀ b, new = some b → b.length < max → ∃ buf, buf.length = max ∧ text buf = text b ∧
        access vs o old new = (set vs v buf,
          ⟨none, readOut old (text (vs v) ++ [0]), some ((text (vs v)).length + 1)⟩))) := by
  rw [access_string vs o ho old new hw]
  have hc : cstr (vs v) = text (vs v) ++ [0] := rfl
  have hcl : (cstr (vs v)).length = (text (vs v)).length + 1 := by rw [hc]; simp
  constructor
  · rintro n rfl hn
    have h1 := sysOut_short (n := n) (cstr (vs v)) new (by omega)
    rw [hc] at h1
    simp only [doString, Option.isSome_some, Option.getD_some, hc, h1]
    simp
    omega
  · intro hn
    have hfit : ∀ n, old = some n → (cstr (vs v)).length ≤ n := fun n h => by have := hn n h; omega
    have h1 := sysOut_fits old (cstr (vs v)) new hfit
    have h2 := fits_retval hfit
    rw [hcl] at h1 h2
    refine ⟨?_, ?_, ?_⟩
    · rintro rfl
      simp only [doString, h1]
      simp [h2, hc]
    · rintro b rfl hb
      have ht : tooLong b.length max = true := by
        rw [tooLong_small (hnew b rfl)]; simpa using hb
      simp only [doString, h1, Nat.sub_zero, ht, if_true]
      simp [hc]
    · rintro b rfl hb
      have ht : tooLong b.length max = false := by
        rw [tooLong_small (hnew b rfl)]; simpa using hb
      refine ⟨poke (vs v) (b ++ [0]), ?_, cstr_poke _ _, ?_⟩
      · unfold poke; simp [hv]; omega
      · simp only [doString, h1, Nat.sub_zero, ht, sysIn]
        simp [h2, hc]

theorem doString_taken (vs : Vars) {v max : Nat} (b : List UInt8) (ht : tooLong b.length max = false) :
    doString vs v max ⟨false, 0, 0, [], some b, 0⟩ =
      (none, set vs v (poke (vs v) (b ++ [0])), ⟨false, 0, (cstr (vs v)).length, [], some b, b.length⟩) := by
  have h3 : sysOut ⟨false, 0, 0, [], some b, 0⟩ (cstr (vs v)) =
      (none, ⟨false, 0, (cstr (vs v)).length, [], some b, 0⟩) := sysOut_fits none (cstr (vs v)) (some b) (by simp)
  unfold doString
  rw [h3]
  simp only [Nat.sub_zero, ht, sysIn]
  simp

theorem string_taken (vs : Vars) (o : Oid) {v max : Nat} (ho : o.handler = .string v max) (hw : o.write = true)
    (b : List UInt8) (ht : tooLong b.length max = false) :
    (access vs o none (some b)).2.err = none ∧ (access vs o none (some b)).1 = set vs v (poke (vs v) (b ++ [0])) := by
  rw [access_string vs o ho none (some b) (.inr hw)]
  have h := doString_taken vs (v := v) b ht
  generalize hx : doString vs v max ⟨(none : Option Nat).isSome, (none : Option Nat).getD 0, 0, [], some b, 0⟩ = x
  have hx' : x = (none, set vs v (poke (vs v) (b ++ [0])), ⟨false, 0, (cstr (vs v)).length, [], some b, b.length⟩) := by
    rw [← hx]; exact h
  subst hx'
  exact ⟨rfl, rfl⟩

/-- **C217, violated**: a new value of 2 GB or more (less than 4 GB) is taken, however small the buffer is: all of it is
written, beyond the end. -/
theorem string_overflow_violated (vs : Vars) (o : Oid) {v max : Nat} (ho : o.handler = .string v max)
    (hw : o.write = true) (hm : max ≤ 2147483648) (b : List UInt8) (h1 : 2147483648 ≤ b.length)
    (h2 : b.length < 4294967296) :
    (access vs o none (some b)).2.err = none ∧ max < ((access vs o none (some b)).1 v).length := by
  have ht := tooLong_large (max := max) h1 h2
  have hmb : max ≤ b.length := Nat.le_trans hm h1
  clear h1 h2 hm
  obtain ⟨h3, h4⟩ := string_taken vs o ho hw b ht
  refine ⟨h3, ?_⟩
  rw [h4]
  have : set vs v (poke (vs v) (b ++ [0])) v = poke (vs v) (b ++ [0]) := by simp [set]
  rw [this]
  unfold poke
  rw [List.length_append, List.length_append]
  simp only [List.length_singleton]
  omega

/-! ## Times -/

theorem toTicks_pos {s : Int} (h0 : 0 ≤ s) (h1 : s < 2147483648) : toTicks s = s / 10 := by
  unfold toTicks wrap hz
  have e1 : (2 : Int) ^ 31 = 2147483648 := by decide
  have e2 : (2 : Int) ^ 32 = 4294967296 := by decide
  have e3 : (2 : Int) ^ 64 = 18446744073709551616 := by decide
  rw [e1, e2, e3, Int.emod_eq_of_lt (a := s * 100) (by omega) (by omega)]
  have : s * 100 / 1000 = s / 10 := by omega
  rw [this]
  generalize hq : s / 10 = q
  omega

theorem toTicks_neg {s : Int} (h0 : s < 0) (h1 : -2147483648 ≤ s) : 1056561954 ≤ toTicks s := by
  unfold toTicks wrap hz
  have e1 : (2 : Int) ^ 31 = 2147483648 := by decide
  have e2 : (2 : Int) ^ 32 = 4294967296 := by decide
  have e3 : (2 : Int) ^ 64 = 18446744073709551616 := by decide
  have e4 : s * 100 % 18446744073709551616 = s * 100 + 18446744073709551616 := by
    rw [← Int.add_emod_right, Int.emod_eq_of_lt (by omega) (by omega)]
  rw [e1, e2, e3, e4]
  have e5 : (s * 100 + 18446744073709551616) / 1000 = (s * 100 + 616) / 1000 + 18446744073709551 := by omega
  have e6 : (18446744073709551 : Int) = 4294967296 * 4294967 + 1271310319 := by decide
  rw [e5]
  generalize hq : (s * 100 + 616) / 1000 = q
  have h2 : -214748365 ≤ q := by omega
  have h3 : q ≤ 0 := by omega
  clear hq e5
  omega

theorem toMsec_pos {s : Int} (h0 : 0 ≤ s) (h1 : s ≤ 214748364) : toMsec s = s * 10 := by
  unfold toMsec wrap hz
  have e1 : (2 : Int) ^ 31 = 2147483648 := by decide
  have e2 : (2 : Int) ^ 32 = 4294967296 := by decide
  have e3 : (2 : Int) ^ 64 = 18446744073709551616 := by decide
  rw [e1, e2, e3, Int.emod_eq_of_lt (a := s * 1000) (by omega) (by omega)]
  have : s * 1000 / 100 = s * 10 := by omega
  rw [this]
  omega

theorem toInt_ofInt {s : Int} (h0 : -2147483648 ≤ s) (h1 : s < 2147483648) : toInt (ofInt s) = s := by
  unfold toInt ofInt
  have e1 : (2 : Nat) ^ 31 = 2147483648 := by decide
  have e2 : (2 : Int) ^ 32 = 4294967296 := by decide
  have e3 : (2 : Nat) ^ 8 = 256 := by decide
  simp only [List.foldr_cons, List.foldr_nil, UInt8.toNat_ofNat', e1, e2, e3]
  split <;> omega

theorem ofInt_length (i : Int) : (ofInt i).length = 4 := rfl

theorem access_msec (vs : Vars) (o : Oid) {v : Nat} (ho : o.handler = .msec v) (old : Option Nat)
    (new : Option (List UInt8)) (hw : new = none ∨ o.write = true) :
    access vs o old new =
      (let x := doMsec vs v ⟨old.isSome, old.getD 0, 0, [], new, 0⟩
       (x.2.1, ⟨x.1, x.2.2.out, if x.1 = none ∨ x.1 = some .nomem then
          some (if old.isSome ∧ x.2.2.oldidx > old.getD 0 then old.getD 0 else x.2.2.oldidx) else none⟩)) := by
  unfold access
  have hh : ¬ (o.node = true ∧ o.handler = .none) := by simp [ho]
  have hw' : ¬ (new.isSome = true ∧ o.write = false) := by
    rintro ⟨h1, h2⟩
    rcases hw with h | h
    · simp [h] at h1
    · simp [h] at h2
  simp only [if_neg hh, if_neg hw']
  rw [ho]
  rfl

/-- All that a call for a time does, in terms of the two conversions. -/
theorem msec_cases (vs : Vars) (o : Oid) {v : Nat} (ho : o.handler = .msec v) (old : Option Nat)
    (hold : ∀ n, old = some n → 4 ≤ n) {m : Int} (hm : toMsec (toInt (vs v)) = m) :
    access vs o old none = (vs, ⟨none, readOut old (ofInt m), some 4⟩) ∧
    (o.write = true → ∀ b s tt, b.length = 4 → toInt b = s → toTicks s = tt →
      (tt < 1 → access vs o old (some b) = (vs, ⟨some .inval, readOut old (ofInt m), none⟩)) ∧
      (1 ≤ tt → access vs o old (some b) = (set vs v (ofInt tt), ⟨none, readOut old (ofInt m), some 4⟩))) := by
  have h2 := fits_retval hold
  constructor
  · rw [access_msec vs o ho old none (.inl rfl)]
    have h1 := sysOut_fits old (ofInt m) none (by rw [ofInt_length]; exact hold)
    rw [ofInt_length] at h1
    unfold doMsec
    rw [hm, h1]
    simp only [sysIn]
    simp [h2]
  · intro hw b s tt hb hs ht
    rw [access_msec vs o ho old (some b) (.inr hw)]
    have h1 := sysOut_fits old (ofInt m) (some b) (by rw [ofInt_length]; exact hold)
    rw [ofInt_length] at h1
    have hb' : b.take 4 = b := by rw [← hb, List.take_length]
    unfold doMsec
    rw [hm, h1]
    simp only [sysIn, Nat.sub_zero, hb, Nat.lt_irrefl, if_false, List.drop_zero, hb', hs, ht]
    constructor
    · intro h
      simp only [if_pos h]
      simp
    · intro h
      simp only [if_neg (show ¬ tt < 1 by omega)]
      simp [h2]

/-- **C218, partial**: a time in milliseconds.  A time from 10 to 2147483647 that is written is accepted and kept in units
of 10 ms; it is read back rounded down to such a unit.  A shorter one is refused and changes nothing.  Missing: negative
times, see below. -/
theorem msec_partial (vs : Vars) (o : Oid) {v : Nat} (ho : o.handler = .msec v) (hw : o.write = true) (s : Int)
    (h0 : 0 ≤ s) (h1 : s < 2147483648) :
    (s < 10 → (access vs o none (some (ofInt s))).1 = vs ∧ (access vs o none (some (ofInt s))).2.err = some .inval) ∧
    (10 ≤ s → (access vs o none (some (ofInt s))).2.err = none ∧
      ∃ s', s - 10 < s' ∧ s' ≤ s ∧ s' % 10 = 0 ∧ ∀ n, 4 ≤ n →
        access (access vs o none (some (ofInt s))).1 o (some n) none =
          ((access vs o none (some (ofInt s))).1, ⟨none, ofInt s', some 4⟩)) := by
  obtain ⟨_, hc⟩ := msec_cases vs o ho none (by simp) rfl
  obtain ⟨ha, hb⟩ := hc hw (ofInt s) s (s / 10) rfl (toInt_ofInt (by omega) h1) (toTicks_pos h0 h1)
  constructor
  · intro h
    rw [ha (by omega)]
    exact ⟨rfl, rfl⟩
  · intro h
    have hx := hb (by omega)
    rw [hx]
    refine ⟨rfl, s / 10 * 10, by omega, by omega, by omega, fun n hn => ?_⟩
    refine (msec_cases _ o ho (some n) (by simpa using hn) ?_).1
    show toMsec (toInt (set vs v (ofInt (s / 10)) v)) = _
    have : set vs v (ofInt (s / 10)) v = ofInt (s / 10) := by simp [set]
    rw [this, toInt_ofInt (by omega) (by omega), toMsec_pos (by omega) (by omega)]

/-- **C218, violated**: every negative time is accepted, and is taken for more than 122 days. -/
theorem msec_negative_violated (vs : Vars) (o : Oid) {v : Nat} (ho : o.handler = .msec v) (hw : o.write = true) (s : Int)
    (h0 : s < 0) (h1 : -2147483648 ≤ s) :
    (access vs o none (some (ofInt s))).2.err = none ∧
      ∃ tt, 122 * 86400 * hz ≤ tt ∧ (access vs o none (some (ofInt s))).1 = set vs v (ofInt tt) := by
  obtain ⟨_, hc⟩ := msec_cases vs o ho none (by simp) rfl
  have hn := toTicks_neg h0 h1
  obtain ⟨_, hb⟩ := hc hw (ofInt s) s _ rfl (toInt_ofInt h1 (by omega)) rfl
  have hx := hb (by omega)
  rw [hx]
  refine ⟨rfl, _, ?_, rfl⟩
  have : 122 * 86400 * hz = 1054080000 := rfl
  omega

/-! ## Non-vacuity -/

/-- Operations that make a tree `net.inet.tcp` with a writable number, a read-only number, a string and a time. -/
def demoOps : List Op :=
  let o (name : String) (number : Int) (node : Bool) (child : Nat) (write : Bool) (h : Handler) : Oid :=
    ⟨name.toList, number, node, child, write, h⟩
  [Op.register 0 (o "net" 4 true 1 true .none), .register 1 (o "inet" 2 true 2 true .none),
    .register 2 (o "ttl" auto false 0 true (.number 0 4)), .register 2 (o "stats" auto false 0 false (.number 1 4)),
    .add 2 (o "host" auto false 0 true (.string 2 8)), .add 2 (o "idle" auto false 0 true (.msec 3)),
    .add 2 (o "tcp" 6 true 0 true .none), .add 3 (o "on" auto false 0 true (.number 4 4))]

/-- The tree they make. -/
def demo : Tree := demoOps.foldl apply (Tree.init 3)

/-- Values for it. -/
def demoVars : Vars := fun i => if i = 2 then [104, 105, 0, 0, 0, 0, 0, 0] else ofInt (64 + i)

example : (sysctl demo demoVars "net.inet.ttl".toList (some 4) none).2 = ⟨none, [64, 0, 0, 0], some 4⟩ ∧
    (sysctl demo demoVars "net.inet.host".toList (some 8) none).2 = ⟨none, [104, 105, 0], some 3⟩ ∧
    (sysctl demo demoVars "net.inet.idle".toList (some 8) none).2 = ⟨none, ofInt 670, some 4⟩ ∧
    (sysctl demo demoVars "net.inet.tcp.on".toList (some 8) none).2 = ⟨none, ofInt 68, some 4⟩ ∧
    (sysctl demo demoVars "net.inet.tcp".toList (some 8) none).2.err = some .isdir ∧
    (sysctl demo demoVars "net.inet.stats".toList none (some (ofInt 5))).2.err = some .perm ∧
    (sysctl demo demoVars "net.inet.udp".toList none (some (ofInt 5))).2.err = some .noent ∧
    (sysctl demo demoVars "net.inet.host".toList none (some [1, 2, 3, 4, 5, 6, 7, 8])).2.err = some .inval ∧
    (sysctl demo demoVars "net.inet.host".toList none (some [1, 2, 3])).1 2 = [1, 2, 3, 0, 0, 0, 0, 0] ∧
    (sysctl demo demoVars "net.inet.idle".toList none (some (ofInt (-1)))).1 3 = ofInt 1271310319 ∧
    (sysctl demo demoVars "net.inet.idle".toList none (some (ofInt 9))).2.err = some .inval ∧
    (sysctl demo demoVars "net.inet.idle".toList none (some (ofInt 2199))).1 3 = ofInt 219 := by
  decide +kernel

/-- Do the operations keep the rules of `names_partial`? -/
def fair (t : Tree) : List Op → Bool
  | [] => true
  | .register l o :: ops => decide (l < t.used ∧ (o.node = true → o.child < t.used)) &&
      decide (o.number = auto ∨ (o.number < autoStart ∧ ∀ p ∈ t.lists l, p.number ≠ o.number)) &&
      fair (apply t (.register l o)) ops
  | .add l o :: ops => decide (l < t.used) &&
      decide (o.number = auto ∨ (o.number < autoStart ∧ ∀ p ∈ t.lists l, p.number ≠ o.number)) &&
      fair (apply t (.add l o)) ops

theorem fair_reach {ops : List Op} : ∀ {t : Tree}, FairReach t → fair t ops = true → FairReach (ops.foldl apply t) := by
  induction ops with
  | nil => intro t h _; exact h
  | cons op ops ih =>
    intro t h hf
    cases op with
    | register l o =>
      simp only [fair, Bool.and_eq_true, decide_eq_true_eq] at hf
      exact ih (.step _ h hf.1.1 hf.1.2) hf.2
    | add l o =>
      simp only [fair, Bool.and_eq_true, decide_eq_true_eq] at hf
      exact ih (.step _ h hf.1.1 hf.1.2) hf.2

/-- The operations of `demo` keep these rules. -/
theorem demo_fair : FairReach demo := fair_reach (.init 3 (by decide)) (by decide +kernel)

/-- `net.inet.tcp.on` is registered in it. -/
example : ∃ o, At demo 0 ["net".toList, "inet".toList, "tcp".toList, "on".toList] o ∧ o.handler = .number 4 4 :=
  ⟨_, .node (o := (demo.lists 0)[0]) (by decide +kernel) (by decide +kernel) (by decide +kernel) (by decide +kernel)
    (.node (o := (demo.lists 1)[0]) (by decide +kernel) (by decide +kernel) (by decide +kernel) (by decide +kernel)
      (.node (o := (demo.lists 2)[0]) (by decide +kernel) (by decide +kernel) (by decide +kernel) (by decide +kernel)
        (.leaf (o := (demo.lists 3)[0]) (by decide +kernel) (by decide +kernel)))), by decide +kernel⟩

/-- An entry with an automatic number, then one with the same number (256): the second name leads to the first entry. -/
example :
    let t := [Op.register 0 ⟨"a".toList, auto, false, 0, false, .number 0 4⟩,
      .add 0 ⟨"b".toList, 256, false, 0, true, .number 1 4⟩].foldl apply (Tree.init 1)
    (sysctl t (fun i => ofInt i) "b".toList (some 4) none).2 = ⟨none, ofInt 0, some 4⟩ ∧
    (sysctl t (fun i => ofInt i) "b".toList none (some (ofInt 7))).2.err = some .perm := by
  decide +kernel

/-- **C215**: a constant is read whole, if there is room, and every new value for it is refused, whatever the entry allows. -/
theorem const_exact (vs : Vars) (o : Oid) (p : List UInt8) (ho : o.handler = .const p) (old : Option Nat)
    (hn : ∀ n, old = some n → p.length ≤ n) :
    access vs o old none = (vs, ⟨none, readOut old p, some p.length⟩) ∧
    ∀ b, (access vs o old (some b)).1 = vs ∧ (access vs o old (some b)).2.err = some .perm := by
  have hh : ¬ (o.node = true ∧ o.handler = .none) := by simp [ho]
  have hd : ∀ r, handle vs o.handler r = doConst vs p r := by intro r; simp only [ho, handle]
  constructor
  · unfold access
    simp only [if_neg hh, hd, doConst, sysOut_fits old p none hn]
    have := fits_retval hn
    simp [this]
  · intro b
    unfold access
    simp only [if_neg hh, hd, doConst, sysOut_fits old p (some b) hn]
    by_cases hw : o.write = false <;> simp [hw]

end Verif.Sysctl
