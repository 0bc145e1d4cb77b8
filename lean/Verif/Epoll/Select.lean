/-!
# `select` and descriptor sets: specification, model of `src/ofp_syscalls.c:317-423`, property C42

`O` is `OFP_SOCK_NUM_OFFSET`, the first socket number.  A descriptor set is the byte array `fd_set_buf` of
`OFP_NUM_SOCKETS_MAX / 8 + 1` bytes (include/api/ofp_socket.h:441).  Accesses outside it, and negative shift
counts, are the outcome `none`.  The readability of the descriptors is a function that does not change during
one pass of the loop.
-/
namespace Verif.Select

/-- `to_bit_index` and `to_bit` (src/ofp_syscalls.c:386-396): byte number and bit number.  For `fd < O` the C
expressions index before the array or shift by a negative amount: `none`. -/
def pos (O : Int) (fd : Int) : Option (Nat × Nat) :=
  if fd < O then none else some ((fd - O).toNat / 8, (fd - O).toNat % 8)

/-- `OFP_FD_ISSET` (src/ofp_syscalls.c:405-409). -/
def isset (O fd : Int) (b : List UInt8) : Option Bool :=
  match pos O fd with
  | none => none
  | some (i, k) => match b[i]? with
    | none => none
    | some x => some (x &&& ((1 : UInt8) <<< UInt8.ofNat k) != 0)

/-- `OFP_FD_SET` (src/ofp_syscalls.c:411-416). -/
def fdset (O fd : Int) (b : List UInt8) : Option (List UInt8) :=
  match pos O fd with
  | none => none
  | some (i, k) => match b[i]? with
    | none => none
    | some x => some (b.set i (x ||| ((1 : UInt8) <<< UInt8.ofNat k)))

/-- `OFP_FD_CLR` (src/ofp_syscalls.c:398-403). -/
def fdclr (O fd : Int) (b : List UInt8) : Option (List UInt8) :=
  match pos O fd with
  | none => none
  | some (i, k) => match b[i]? with
    | none => none
    | some x => some (b.set i (x &&& ~~~ ((1 : UInt8) <<< UInt8.ofNat k)))

/-- `OFP_FD_ZERO` (src/ofp_syscalls.c:418-423). -/
def fdzero (b : List UInt8) : List UInt8 := b.map (fun _ => 0)

/-- `set_ready_fd` (src/ofp_syscalls.c:331-339): new set and 1 or 0. -/
def setReadyFd (O fd : Int) (ready : Int → Bool) (b : List UInt8) : Option (List UInt8 × Nat) :=
  match isset O fd b with
  | none => none
  | some m => if m && ready fd then some (b, 1) else (fdclr O fd b).map (fun b' => (b', 0))

/-- The loop of `set_ready_fds` (src/ofp_syscalls.c:341-351): `n` iterations from `fd` on. -/
def setReadyFds (O : Int) (ready : Int → Bool) : Nat → Int → List UInt8 → Option (List UInt8 × Nat)
  | 0, _, b => some (b, 0)
  | n + 1, fd, b =>
    match setReadyFd O fd ready b with
    | none => none
    | some (b', c) => (setReadyFds O ready n (fd + 1) b').map (fun p => (p.1, c + p.2))

/-- The loop of `none_of_ready` (src/ofp_syscalls.c:353-363). -/
def noneOfReady (O : Int) (ready : Int → Bool) : Nat → Int → List UInt8 → Option Bool
  | 0, _, _ => some true
  | n + 1, fd, b =>
    match isset O fd b with
    | none => none
    | some m => if m && ready fd then some false else noneOfReady O ready n (fd + 1) b

/-- `to_usec` (src/ofp_syscalls.c:325-329): `uint32_t` result; `none` = NULL timeout. -/
def toUsec : Option (Nat × Nat) → Nat
  | none => 0
  | some (s, u) => (s * 1000000 + u) % 2 ^ 32

/-- `is_blocking` (src/ofp_syscalls.c:365-369). -/
def isBlocking (t : Option (Nat × Nat)) : Bool := t.isNone || 0 < toUsec t

/-- `_ofp_select` with a non-NULL `readfds` (src/ofp_syscalls.c:371-384): the sleep done (argument of `ofp_msleep`,
0 = for ever), the number returned and the set left.  `r0`: readability before the sleep, `r1` after. -/
def select (O nfds : Int) (b : List UInt8) (t : Option (Nat × Nat)) (r0 r1 : Int → Bool) :
    Option (Option Nat × Nat × List UInt8) :=
  let n := (nfds - O).toNat
  if isBlocking t then
    match noneOfReady O r0 n O b with
    | none => none
    | some true => (setReadyFds O r1 n O b).map (fun p => (some (toUsec t), p.2, p.1))
    | some false => (setReadyFds O r0 n O b).map (fun p => (none, p.2, p.1))
  else (setReadyFds O r0 n O b).map (fun p => (none, p.2, p.1))

/-! ## Properties -/

/-- The descriptors a set of `b.length` bytes can hold. -/
def InRange (O fd : Int) (b : List UInt8) : Prop := O ≤ fd ∧ fd < O + 8 * b.length

/-- Membership as the user tests it. -/
def mem (O fd : Int) (b : List UInt8) : Prop := isset O fd b = some true

theorem byte_or : ∀ x : Fin 256, ∀ k j : Fin 8,
    ((UInt8.ofNat x.val ||| ((1 : UInt8) <<< UInt8.ofNat k.val)) &&& ((1 : UInt8) <<< UInt8.ofNat j.val) != 0) =
      (decide (k = j) || (UInt8.ofNat x.val &&& ((1 : UInt8) <<< UInt8.ofNat j.val) != 0)) := by
  decide +kernel

theorem byte_andnot : ∀ x : Fin 256, ∀ k j : Fin 8,
    ((UInt8.ofNat x.val &&& ~~~ ((1 : UInt8) <<< UInt8.ofNat k.val)) &&& ((1 : UInt8) <<< UInt8.ofNat j.val) != 0) =
      (!decide (k = j) && (UInt8.ofNat x.val &&& ((1 : UInt8) <<< UInt8.ofNat j.val) != 0)) := by
  decide +kernel

theorem pos_in {O fd : Int} {b : List UInt8} (h : InRange O fd b) :
    ∃ i k x, pos O fd = some (i, k) ∧ b[i]? = some x ∧ i < b.length ∧ k < 8 ∧ fd = O + 8 * i + k := by
  obtain ⟨h1, h2⟩ := h
  have hi : (fd - O).toNat / 8 < b.length := by omega
  refine ⟨(fd - O).toNat / 8, (fd - O).toNat % 8, b[(fd - O).toNat / 8], ?_, ?_, hi, ?_, ?_⟩
  · unfold pos; rw [if_neg (by omega)]
  · exact List.getElem?_eq_getElem hi
  · omega
  · omega

theorem u8_lift (x : UInt8) : UInt8.ofNat x.toNat = x := by simp

/-- **C42 (sets).** Within range, `FD_SET` and `FD_CLR` add and remove exactly that descriptor, `FD_ZERO` empties
the set, and no access leaves the array. -/
theorem fd_sets (O fd fd' : Int) (b : List UInt8) (h : InRange O fd b) (h' : InRange O fd' b) :
    (∃ b', fdset O fd b = some b' ∧ b'.length = b.length ∧ (mem O fd' b' ↔ fd' = fd ∨ mem O fd' b)) ∧
    (∃ b', fdclr O fd b = some b' ∧ b'.length = b.length ∧ (mem O fd' b' ↔ fd' ≠ fd ∧ mem O fd' b)) ∧
    ((fdzero b).length = b.length ∧ ¬ mem O fd' (fdzero b)) ∧ ∃ m, isset O fd b = some m := by
  obtain ⟨i, k, x, e1, e2, e3, e4, e5⟩ := pos_in h
  obtain ⟨j, m, y, f1, f2, f3, f4, f5⟩ := pos_in h'
  have hx := u8_lift x
  refine ⟨?_, ?_, ?_, ?_⟩
  · refine ⟨b.set i (x ||| ((1 : UInt8) <<< UInt8.ofNat k)), by simp [fdset, e1, e2], by simp, ?_⟩
    simp only [mem, isset, f1]
    by_cases hij : i = j
    · subst hij
      rw [List.getElem?_set_self e3, e2]
      simp only [Option.some.injEq]
      have hb := byte_or ⟨x.toNat, x.toNat_lt⟩ ⟨k, e4⟩ ⟨m, f4⟩
      simp only [hx, Fin.mk.injEq] at hb
      rw [hb]
      have : k = m ↔ fd' = fd := by omega
      simp [this]
    · rw [List.getElem?_set_ne hij, f2]
      have : fd' ≠ fd := by omega
      simp [this]
  · refine ⟨b.set i (x &&& ~~~ ((1 : UInt8) <<< UInt8.ofNat k)), by simp [fdclr, e1, e2], by simp, ?_⟩
    simp only [mem, isset, f1]
    by_cases hij : i = j
    · subst hij
      rw [List.getElem?_set_self e3, e2]
      simp only [Option.some.injEq]
      have hb := byte_andnot ⟨x.toNat, x.toNat_lt⟩ ⟨k, e4⟩ ⟨m, f4⟩
      simp only [hx, Fin.mk.injEq] at hb
      rw [hb]
      have : k = m ↔ fd' = fd := by omega
      simp [this]
    · rw [List.getElem?_set_ne hij, f2]
      have : fd' ≠ fd := by omega
      simp [this]
  · refine ⟨by simp [fdzero], ?_⟩
    simp [mem, isset, f1, fdzero, f2]
  · exact ⟨_, by simp [isset, e1, e2]; rfl⟩

theorem setReadyFds_spec (O : Int) (r : Int → Bool) : ∀ (n : Nat) (fd : Int) (b : List UInt8),
    O ≤ fd → fd + n ≤ O + 8 * b.length →
    ∃ b' c, setReadyFds O r n fd b = some (b', c) ∧ b'.length = b.length ∧
      (∀ x, InRange O x b → (mem O x b' ↔ mem O x b ∧ (fd ≤ x ∧ x < fd + n → r x = true))) ∧
      ∃ l : List Int, l.Nodup ∧ l.length = c ∧ ∀ x, x ∈ l ↔ fd ≤ x ∧ x < fd + n ∧ mem O x b ∧ r x = true := by
  intro n
  induction n with
  | zero =>
    intro fd b _ _
    refine ⟨b, 0, rfl, rfl, ?_, [], by simp, rfl, ?_⟩
    · intro x _
      constructor
      · intro h; exact ⟨h, fun h2 => by omega⟩
      · exact fun h => h.1
    · intro x; simp; omega
  | succ n ih =>
    intro fd b h1 h2
    have hr : InRange O fd b := ⟨h1, by omega⟩
    obtain ⟨m, hm⟩ := (fd_sets O fd fd b hr hr).2.2.2
    obtain ⟨bc, hc1, hc2, _⟩ := (fd_sets O fd fd b hr hr).2.1
    have hbc : ∀ x, InRange O x b → (mem O x bc ↔ x ≠ fd ∧ mem O x b) := by
      intro x hx
      obtain ⟨b'', g1, _, g3⟩ := (fd_sets O fd x b hr hx).2.1
      rw [hc1] at g1; cases g1; exact g3
    unfold setReadyFds setReadyFd
    rw [hm]
    by_cases hmr : (m && r fd) = true
    · simp only [hmr, if_true]
      obtain ⟨b', c, k1, k2, k3, l, k4, k5, k6⟩ := ih (fd + 1) b (by omega) (by omega)
      rw [k1]
      have hmm : mem O fd b := by
        unfold mem; rw [hm]; simp at hmr; simp [hmr.1]
      have hrr : r fd = true := by simp at hmr; exact hmr.2
      refine ⟨b', 1 + c, rfl, k2, ?_, fd :: l, ?_, by simp [k5]; omega, ?_⟩
      · intro x hx
        rw [k3 x hx]
        constructor
        · rintro ⟨a1, a2⟩
          refine ⟨a1, fun a3 => ?_⟩
          by_cases hxf : x = fd
          · rw [hxf]; exact hrr
          · exact a2 (by omega)
        · rintro ⟨a1, a2⟩; exact ⟨a1, fun a3 => a2 (by omega)⟩
      · rw [List.nodup_cons]
        refine ⟨?_, k4⟩
        rw [k6]; omega
      · intro x
        rw [List.mem_cons, k6]
        constructor
        · rintro (rfl | ⟨a1, a2, a3, a4⟩)
          · exact ⟨by omega, by omega, hmm, hrr⟩
          · exact ⟨by omega, by omega, a3, a4⟩
        · rintro ⟨a1, a2, a3, a4⟩
          by_cases hxf : x = fd
          · exact Or.inl hxf
          · exact Or.inr ⟨by omega, by omega, a3, a4⟩
    · simp only [hmr, Bool.false_eq_true, if_false]
      rw [hc1]
      obtain ⟨b', c, k1, k2, k3, l, k4, k5, k6⟩ := ih (fd + 1) bc (by omega) (by omega)
      simp only [Option.map_some]
      rw [k1]
      have hnot : ¬ (mem O fd b ∧ r fd = true) := by
        rintro ⟨a1, a2⟩
        unfold mem at a1; rw [hm] at a1; cases a1
        rw [a2] at hmr; exact hmr rfl
      have hrng : ∀ x, InRange O x b → InRange O x bc := fun x hx => ⟨hx.1, by rw [hc2]; exact hx.2⟩
      refine ⟨b', 0 + c, rfl, by rw [k2, hc2], ?_, l, k4, by omega, ?_⟩
      · intro x hx
        rw [k3 x (hrng x hx), hbc x hx]
        constructor
        · rintro ⟨⟨a0, a1⟩, a2⟩
          exact ⟨a1, fun a3 => a2 (by omega)⟩
        · rintro ⟨a1, a2⟩
          refine ⟨⟨?_, a1⟩, fun a3 => a2 (by omega)⟩
          rintro rfl
          exact hnot ⟨a1, a2 (by omega)⟩
      · intro x
        rw [k6]
        constructor
        · rintro ⟨a1, a2, a3, a4⟩
          have := (hbc x ⟨by omega, by omega⟩).1 a3
          exact ⟨by omega, by omega, this.2, a4⟩
        · rintro ⟨a1, a2, a3, a4⟩
          have hxf : x ≠ fd := by rintro rfl; exact hnot ⟨a3, a4⟩
          exact ⟨by omega, by omega, (hbc x ⟨by omega, by omega⟩).2 ⟨hxf, a3⟩, a4⟩

theorem noneOfReady_spec (O : Int) (r : Int → Bool) : ∀ (n : Nat) (fd : Int) (b : List UInt8),
    O ≤ fd → fd + n ≤ O + 8 * b.length →
    ∃ v, noneOfReady O r n fd b = some v ∧
      (v = true ↔ ∀ x, fd ≤ x → x < fd + n → mem O x b → r x = false) := by
  intro n
  induction n with
  | zero => intro fd b _ _; exact ⟨true, rfl, by simp; omega⟩
  | succ n ih =>
    intro fd b h1 h2
    have hr : InRange O fd b := ⟨h1, by omega⟩
    obtain ⟨m, hm⟩ := (fd_sets O fd fd b hr hr).2.2.2
    unfold noneOfReady
    rw [hm]
    by_cases hmr : (m && r fd) = true
    · simp only [hmr, if_true]
      refine ⟨false, rfl, by simp, ?_⟩
      intro h
      simp at hmr
      have := h fd (by omega) (by omega) (by unfold mem; rw [hm, hmr.1])
      rw [hmr.2] at this; cases this
    · simp only [hmr, Bool.false_eq_true, if_false]
      obtain ⟨v, a1, a2⟩ := ih (fd + 1) b (by omega) (by omega)
      refine ⟨v, a1, a2.trans ?_⟩
      constructor
      · intro h x hx1 hx2 hx3
        by_cases hxf : x = fd
        · subst hxf
          unfold mem at hx3; rw [hm] at hx3; cases hx3
          simpa using hmr
        · exact h x (by omega) (by omega) hx3
      · intro h x hx1 hx2 hx3; exact h x (by omega) (by omega) hx3

/-- **C42.** `select` on the read set `b` (with `nfds` within the set): it sleeps exactly when it may block and no
descriptor below `nfds` in the set is readable; it then returns the number of descriptors below `nfds` in the set
that are readable, and leaves in the set exactly these (descriptors from `nfds` on keep their membership).
`r` is the readability after the sleep, if any. -/
theorem select_exact (O nfds : Int) (b : List UInt8) (t : Option (Nat × Nat)) (r0 r1 : Int → Bool)
    (hn : nfds ≤ O + 8 * b.length) :
    ∃ slept c b', select O nfds b t r0 r1 = some (slept, c, b') ∧ b'.length = b.length ∧
      let sleeps := isBlocking t = true ∧ ∀ x, O ≤ x → x < nfds → mem O x b → r0 x = false
      let r := if slept.isSome then r1 else r0
      (slept.isSome ↔ sleeps) ∧ (sleeps → slept = some (toUsec t)) ∧
      (∀ x, InRange O x b → (mem O x b' ↔ mem O x b ∧ (x < nfds → r x = true))) ∧
      ∃ l : List Int, l.Nodup ∧ l.length = c ∧ ∀ x, x ∈ l ↔ O ≤ x ∧ x < nfds ∧ mem O x b ∧ r x = true := by
  unfold select
  by_cases hO : nfds ≤ O
  · have h0 : (nfds - O).toNat = 0 := by omega
    rw [h0]
    have hv : ∀ x, O ≤ x → x < nfds → mem O x b → r0 x = false := fun x h1 h2 => by omega
    have hm : ∀ (r : Int → Bool) x, InRange O x b → (mem O x b ↔ mem O x b ∧ (x < nfds → r x = true)) :=
      fun r x hx => ⟨fun h => ⟨h, fun h2 => by have := hx.1; omega⟩, fun h => h.1⟩
    have hl : ∀ r : Int → Bool, ∃ l : List Int, l.Nodup ∧ l.length = 0 ∧
        ∀ x, x ∈ l ↔ O ≤ x ∧ x < nfds ∧ mem O x b ∧ r x = true :=
      fun r => ⟨[], by simp, rfl, fun x => ⟨fun h => by simp at h, fun h => by omega⟩⟩
    cases hb : isBlocking t with
    | true =>
      exact ⟨some (toUsec t), 0, b, rfl, rfl, ⟨fun _ => ⟨rfl, hv⟩, fun _ => rfl⟩, fun _ => rfl, hm r1, hl r1⟩
    | false =>
      exact ⟨none, 0, b, rfl, rfl, ⟨fun h => by (cases h), fun h => by (cases h.1)⟩, fun h => by (cases h.1), hm r0, hl r0⟩
  · have hc : O + ((nfds - O).toNat : Int) = nfds := by omega
    obtain ⟨v, n1, n2⟩ := noneOfReady_spec O r0 (nfds - O).toNat O b (by omega) (by omega)
    obtain ⟨b0, c0, k1, k2, k3, l0, k4, k5, k6⟩ := setReadyFds_spec O r0 (nfds - O).toNat O b (by omega) (by omega)
    obtain ⟨b1, c1, j1, j2, j3, l1, j4, j5, j6⟩ := setReadyFds_spec O r1 (nfds - O).toNat O b (by omega) (by omega)
    rw [hc] at n2 k3 k6 j3 j6
    cases hb : isBlocking t with
    | true =>
      simp only [if_true, n1]
      cases v with
      | true =>
        rw [j1]
        refine ⟨some (toUsec t), c1, b1, rfl, j2, ?_⟩
        simp only [Option.isSome_some, if_true, true_and, true_iff]
        refine ⟨n2.1 rfl, fun _ => trivial, ?_, l1, j4, j5, j6⟩
        intro x hx; rw [j3 x hx]
        exact ⟨fun h => ⟨h.1, fun h2 => h.2 ⟨hx.1, h2⟩⟩, fun h => ⟨h.1, fun h2 => h.2 h2.2⟩⟩
      | false =>
        rw [k1]
        have hns : ¬ ∀ x, O ≤ x → x < nfds → mem O x b → r0 x = false := fun h => by
          have := n2.2 h; cases this
        refine ⟨none, c0, b0, rfl, k2, ?_⟩
        simp only [Option.isSome_none, true_and, Bool.false_eq_true, if_false]
        refine ⟨⟨fun h => by (cases h), fun h => absurd h hns⟩, fun h => absurd h hns, ?_, l0, k4, k5, k6⟩
        intro x hx; rw [k3 x hx]
        exact ⟨fun h => ⟨h.1, fun h2 => h.2 ⟨hx.1, h2⟩⟩, fun h => ⟨h.1, fun h2 => h.2 h2.2⟩⟩
    | false =>
      simp only [Bool.false_eq_true, if_false]
      rw [k1]
      refine ⟨none, c0, b0, rfl, k2, ?_⟩
      simp only [Option.isSome_none, false_and, Bool.false_eq_true, if_false]
      refine ⟨by simp, fun h => absurd h id, ?_, l0, k4, k5, k6⟩
      intro x hx; rw [k3 x hx]
      exact ⟨fun h => ⟨h.1, fun h2 => h.2 ⟨hx.1, h2⟩⟩, fun h => ⟨h.1, fun h2 => h.2 h2.2⟩⟩

/-- **C42, when it may block.** Without a timeout, or with a positive one below 2^32 microseconds, `select` may
block; with a zero timeout it never does. -/
theorem select_blocking_partial (t : Option (Nat × Nat)) (h : ∀ s u, t = some (s, u) → s * 1000000 + u < 2 ^ 32) :
    isBlocking t = true ↔ ∀ s u, t = some (s, u) → 0 < s * 1000000 + u := by
  cases t with
  | none => simp [isBlocking]
  | some p =>
    obtain ⟨s, u⟩ := p
    have := h s u rfl
    simp [isBlocking, toUsec, Nat.mod_eq_of_lt this]

/-- **C42 violated (long timeout).** A timeout of 4294.967296 s is taken for zero: `select` returns at once. -/
theorem select_long_timeout_violated (r1 : Int → Bool) :
    select 1024 1025 [1] (some (4294, 967296)) (fun _ => false) r1 = some (none, 0, [0]) := by
  have h : isBlocking (some (4294, 967296)) = false := by decide
  simp only [select, h, Bool.false_eq_true, if_false]
  clear h r1
  decide +kernel

-- Non-vacuity: descriptors 1024 and 1033 set, only the second readable.
example : select 1024 1034 [1, 2] none (fun x => x == 1033) (fun _ => false) = some (none, 1, [0, 2]) := by
  decide +kernel

end Verif.Select
