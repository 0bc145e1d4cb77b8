import Verif.Vxlan.Conc
/-! # C179: the table under every schedule -/
namespace Verif.Vxlan

/-- A MAC address somebody tried to learn. -/
def Told (L : List (Mac × Nat)) (m : Mac) : Prop := ∃ d, (m, d) ∈ L

/-- An address somebody tried to learn, for whichever MAC address. -/
def Known (L : List (Mac × Nat)) (a : Nat) : Prop := a = 0 ∨ ∃ m, (m, a) ∈ L

/-- What the thread carries comes from recorded calls. -/
def PcOk (L : List (Mac × Nat)) : Pc → Prop
  | .cas1 m d _ _ _ => (m, d) ∈ L
  | .cas2 m d _ _ => (m, d) ∈ L
  | .sAddr d _ => Known L d
  | .lAddr m _ => m = 0 ∨ Told L m
  | .ret m r => Known L r ∧ (r ≠ 0 → m = 0 ∨ Told L m)
  | _ => True

structure Good (s : Sys) : Prop where
  keys : ∀ i, (s.tab.slot i).key = FREE ∨ (s.tab.slot i).key = RECYC ∨
    ∃ m, Told s.log m ∧ (s.tab.slot i).key = m.val
  adr : ∀ i, Known s.log (s.tab.slot i).addr
  pcs : ∀ k, PcOk s.log (s.pc k)

theorem told_mono {L L' : List (Mac × Nat)} {m : Mac} (h : Told L m) : Told (L ++ L') m := by
  obtain ⟨d, hd⟩ := h; exact ⟨d, by simp [hd]⟩

theorem known_mono {L L' : List (Mac × Nat)} {a : Nat} (h : Known L a) : Known (L ++ L') a := by
  rcases h with h | ⟨m, hm⟩
  · exact Or.inl h
  · exact Or.inr ⟨m, by simp [hm]⟩

theorem pcok_mono {L L' : List (Mac × Nat)} {p : Pc} (h : PcOk L p) : PcOk (L ++ L') p := by
  cases p with
  | cas1 m d n i old => simp only [PcOk] at h ⊢; simp [h]
  | cas2 m d n i => simp only [PcOk] at h ⊢; simp [h]
  | sAddr d i => exact known_mono h
  | lAddr m i =>
    rcases h with h | h
    · exact Or.inl h
    · exact Or.inr (told_mono h)
  | ret m r =>
    refine ⟨known_mono h.1, fun hr => ?_⟩
    rcases h.2 hr with h | h
    · exact Or.inl h
    · exact Or.inr (told_mono h)
  | idle => trivial
  | sTmo i => trivial
  | lKey m n i => trivial
  | tTmo i => trivial
  | tKey i t => trivial
  | tDel i => trivial
  | tEnd => trivial

theorem good_init : Good Sys.init :=
  ⟨fun _ => Or.inl rfl, fun _ => Or.inl rfl, fun _ => trivial⟩

/-- One instruction keeps keys and addresses among the recorded ones. -/
theorem instr_ok {t : Tab} {L : List (Mac × Nat)} {p : Pc}
    (h1 : ∀ i, (t.slot i).key = FREE ∨ (t.slot i).key = RECYC ∨
      ∃ m, Told L m ∧ (t.slot i).key = m.val)
    (h2 : ∀ i, Known L (t.slot i).addr) (h3 : PcOk L p) :
    (∀ i, ((instr t p).1.slot i).key = FREE ∨ ((instr t p).1.slot i).key = RECYC ∨
      ∃ m, Told L m ∧ ((instr t p).1.slot i).key = m.val) ∧
    (∀ i, Known L ((instr t p).1.slot i).addr) ∧ PcOk L (instr t p).2 := by
  have hcas : ∀ i old m d, (m, d) ∈ L →
      (∀ j, ((cas t i old m.val).1.slot j).key = FREE ∨ ((cas t i old m.val).1.slot j).key = RECYC ∨
        ∃ m', Told L m' ∧ ((cas t i old m.val).1.slot j).key = m'.val) ∧
      (∀ j, Known L ((cas t i old m.val).1.slot j).addr) := by
    intro i old m d hm
    unfold cas
    by_cases c : (t.slot i).key = old
    · rw [if_pos c]
      constructor
      · intro j
        by_cases cj : j = i
        · subst cj; simp only [put_slot]; exact Or.inr (Or.inr ⟨m, ⟨d, hm⟩, rfl⟩)
        · simp only [put_other _ _ cj]; exact h1 j
      · intro j
        by_cases cj : j = i
        · subst cj; simp only [put_slot]; exact h2 j
        · simp only [put_other _ _ cj]; exact h2 j
    · rw [if_neg c]; exact ⟨h1, h2⟩
  cases p with
  | idle => exact ⟨h1, h2, h3⟩
  | cas1 m d n i old =>
    have := hcas i old m d h3
    simp only [instr]
    by_cases c : (cas t i old m.val).2 = FREE ∨ (cas t i old m.val).2 = m.val
    · rw [if_pos c]; exact ⟨this.1, this.2, Or.inr ⟨m, h3⟩⟩
    · rw [if_neg c]; exact ⟨this.1, this.2, h3⟩
  | cas2 m d n i =>
    have := hcas i RECYC m d h3
    simp only [instr]
    by_cases c : (cas t i RECYC m.val).2 = RECYC ∨ (cas t i RECYC m.val).2 = m.val
    · rw [if_pos c]; exact ⟨this.1, this.2, Or.inr ⟨m, h3⟩⟩
    · rw [if_neg c]
      refine ⟨this.1, this.2, ?_⟩
      cases n with
      | zero => trivial
      | succ n => exact h3
  | sAddr d i =>
    simp only [instr]
    refine ⟨fun j => ?_, fun j => ?_, trivial⟩ <;> by_cases cj : j = i
    · subst cj; simp only [put_slot]; exact h1 j
    · simp only [put_other _ _ cj]; exact h1 j
    · subst cj; simp only [put_slot]; exact h3
    · simp only [put_other _ _ cj]; exact h2 j
  | sTmo i =>
    simp only [instr]
    refine ⟨fun j => ?_, fun j => ?_, trivial⟩ <;> by_cases cj : j = i
    · subst cj; simp only [put_slot]; exact h1 j
    · simp only [put_other _ _ cj]; exact h1 j
    · subst cj; simp only [put_slot]; exact h2 j
    · simp only [put_other _ _ cj]; exact h2 j
  | lKey m n i =>
    simp only [instr]
    by_cases c : (t.slot i).key = m.val
    · rw [if_pos c]
      refine ⟨h1, h2, ?_⟩
      rcases h1 i with a | a | ⟨m', b1, b2⟩
      · exact Or.inl (Fin.ext (by rw [← c, a]; rfl))
      · rw [c] at a; exact absurd a (RECYC_ne m)
      · rw [c] at b2; rw [Fin.ext b2]; exact Or.inr b1
    · rw [if_neg c]
      by_cases c2 : (t.slot i).key = FREE
      · rw [if_pos c2]; exact ⟨h1, h2, ⟨Or.inl rfl, fun x => absurd rfl x⟩⟩
      · rw [if_neg c2]
        refine ⟨h1, h2, ?_⟩
        cases n with
        | zero => exact ⟨Or.inl rfl, fun x => absurd rfl x⟩
        | succ n => exact trivial
  | lAddr m i => exact ⟨h1, h2, ⟨h2 i, fun _ => h3⟩⟩
  | ret m r => exact ⟨h1, h2, h3⟩
  | tTmo i => exact ⟨h1, h2, trivial⟩
  | tKey i tmo =>
    simp only [instr]
    by_cases c : (t.slot i).key ≠ FREE ∧ (t.slot i).key ≠ RECYC ∧ tmo + AGE < t.tick
    · rw [if_pos c]; exact ⟨h1, h2, trivial⟩
    · rw [if_neg c]; exact ⟨h1, h2, trivial⟩
  | tDel i =>
    simp only [instr]
    refine ⟨fun j => ?_, fun j => ?_, trivial⟩ <;> by_cases cj : j = i
    · subst cj; simp only [put_slot]; simp
    · simp only [put_other _ _ cj]; exact h1 j
    · subst cj; simp only [put_slot]; exact h2 j
    · simp only [put_other _ _ cj]; exact h2 j
  | tEnd => exact ⟨h1, h2, trivial⟩

theorem good_ev {s : Sys} (h : Good s) (e : Ev) : Good (ev s e) := by
  cases e with
  | call k c =>
    simp only [ev]
    by_cases hf : (s.pc k).free = true
    · rw [if_pos hf]
      refine ⟨fun i => ?_, fun i => known_mono (h.adr i), fun j => ?_⟩
      · rcases h.keys i with a | a | ⟨m, b1, b2⟩
        · exact Or.inl a
        · exact Or.inr (Or.inl a)
        · exact Or.inr (Or.inr ⟨m, told_mono b1, b2⟩)
      · simp only [at']
        by_cases cj : j = k
        · rw [if_pos cj]
          cases c with
          | set m d => simp only [begin', PcOk, logged]; simp
          | get m => trivial
          | tick => trivial
        · rw [if_neg cj]; exact pcok_mono (h.pcs j)
    · rw [if_neg hf]; exact h
  | go k =>
    have := instr_ok h.keys h.adr (h.pcs k)
    refine ⟨this.1, this.2.1, fun j => ?_⟩
    simp only [ev, at']
    by_cases cj : j = k
    · rw [if_pos cj]; exact this.2.2
    · rw [if_neg cj]; exact h.pcs j

theorem good_sched (es : List Ev) : ∀ {s}, Good s → Good (sched s es) := by
  induction es with
  | nil => intro s h; exact h
  | cons e es ih => intro s h; exact ih (good_ev h e)

theorem log_sched (es : List Ev) : ∀ {s : Sys} {m : Mac} {d : Nat}, (m, d) ∈ (sched s es).log →
    (m, d) ∈ s.log ∨ ∃ k, Ev.call k (.set m d) ∈ es := by
  induction es with
  | nil => intro s m d h; exact Or.inl h
  | cons e es ih =>
    intro s m d h
    rcases ih h with h | ⟨k, hk⟩
    · cases e with
      | go k => exact Or.inl h
      | call k c =>
        simp only [ev] at h
        by_cases hf : (s.pc k).free = true
        · rw [if_pos hf] at h
          simp only [List.mem_append] at h
          rcases h with h | h
          · exact Or.inl h
          · cases c with
            | set m' d' =>
              simp [logged] at h
              rw [h.1, h.2]
              exact Or.inr ⟨k, List.mem_cons_self⟩
            | get m' => simp [logged] at h
            | tick => simp [logged] at h
        · rw [if_neg hf] at h; exact Or.inl h
    · exact Or.inr ⟨k, List.mem_cons_of_mem _ hk⟩

/-- C179, the part that holds: under every schedule of any number of threads, a look-up that
returns a non-zero address `r` for a MAC address other than the all-zero one returns an address
that some thread passed to `ofp_vxlan_set_mac_dst`, and some thread passed this MAC address too.
Missing: that the two were passed together, see `concurrent_answer_violated`. -/
theorem concurrent_answer_partial (es : List Ev) (k : Nat) (m : Mac) (r : Nat) (hm : m ≠ 0)
    (hr : r ≠ 0) (h : (sched Sys.init es).pc k = .ret m r) :
    (∃ k' m', Ev.call k' (.set m' r) ∈ es) ∧ (∃ k' d, Ev.call k' (.set m d) ∈ es) := by
  have hg := (good_sched es good_init).pcs k
  rw [h] at hg
  obtain ⟨h1, h2⟩ := hg
  constructor
  · rcases h1 with h1 | ⟨m', h1⟩
    · exact absurd h1 hr
    · rcases log_sched es h1 with x | ⟨k', x⟩
      · simp [Sys.init] at x
      · exact ⟨k', m', x⟩
  · rcases h2 hr with h2 | ⟨d, h2⟩
    · exact absurd h2 hm
    · rcases log_sched es h2 with x | ⟨k', x⟩
      · simp [Sys.init] at x
      · exact ⟨k', d, x⟩

/-- `n` instructions of thread `k`. -/
def go (k n : Nat) : List Ev := List.replicate n (.go k)

/-- A MAC address with the hash after the one of `macA`: 06:00:00:00:01:05. -/
def macC : Mac := ⟨0x050100000006, by decide⟩

/-- The schedule: A is learned; B has the same hash and is lost, but its address 2 stays in the
next slot; thread 0 starts to learn C and stores the key; thread 1 looks C up. -/
def race : List Ev :=
  [.call 0 (.set macA 1)] ++ go 0 3 ++ [.call 0 (.set macB 2)] ++ go 0 5 ++
  [.call 0 (.set macC 3)] ++ go 0 1 ++ [.call 1 (.get macC)] ++ go 1 2

/-- C179 refuted: a look-up of C, concurrent with the first learning of C, returns the tunnel end
point of B: a frame for C is sent to the wrong end point. -/
theorem concurrent_answer_violated :
    (sched Sys.init race).pc 1 = .ret macC 2 ∧ macC ≠ macB ∧
      ∀ k, Ev.call k (.set macC 2) ∉ race := by
  refine ⟨rfl, by decide, fun k h => ?_⟩
  simp [race, go, List.replicate] at h
  exact absurd h.2 (by decide)

/-! ### A refresh can be lost -/

/-- One undisturbed run of the timer by thread 0 that deletes nothing. -/
def tickEv : List Ev := [.call 0 .tick] ++ go 0 3

theorem at_at (f : Nat → Pc) (i : Nat) (p q : Pc) : at' (at' f i p) i q = at' f i q := by
  funext j; simp only [at']; by_cases h : j = i <;> simp [h]
theorem at_self (f : Nat → Pc) (i : Nat) (p : Pc) : at' f i p i = p := by simp [at']
theorem at_id (f : Nat → Pc) (i : Nat) : at' f i (f i) = f := by
  funext j; simp only [at']; by_cases h : j = i <;> simp [h]

theorem tick_seq (s : Sys) (hp : s.pc 0 = .idle)
    (hx : ¬ ((s.tab.slot s.tab.check).key ≠ FREE ∧ (s.tab.slot s.tab.check).key ≠ RECYC ∧
      (s.tab.slot s.tab.check).tmo + AGE < s.tab.tick)) :
    sched s tickEv = ⟨⟨s.tab.slot, (s.tab.check + 1) % N, (s.tab.tick + 1) % 2 ^ 32⟩, s.pc, s.log⟩ := by
  have e0 : at' s.pc 0 .idle = s.pc := by rw [← hp]; exact at_id _ _
  simp only [sched, tickEv, go, List.replicate, List.cons_append, List.nil_append, List.foldl, ev, hp,
    Pc.free, if_true, begin', logged, List.append_nil, at_self, instr, at_at]
  rw [if_neg hx]
  simp only [instr, at_at, e0]

/-- A MAC address whose slot is inspected at tick 360001. -/
def macR : Mac := ⟨0x1e4100000002, by decide⟩

/-- The table that holds `macR` learned at tick 0, at tick `n`. -/
def tabR (d n : Nat) : Tab := ⟨(fill init macR d 7745).slot, n % N, n⟩

/-- `n` undisturbed runs of the timer. -/
def tickEvs : Nat → List Ev
  | 0 => []
  | n + 1 => tickEvs n ++ tickEv

theorem ticks_seq (d : Nat) (L : List (Mac × Nat)) : ∀ n, n ≤ 360001 →
    sched ⟨tabR d 0, fun _ => .idle, L⟩ (tickEvs n) = ⟨tabR d n, fun _ => .idle, L⟩
  | 0, _ => rfl
  | n + 1, h => by
    have ih := ticks_seq d L n (by omega)
    have : ∀ a b, sched ⟨tabR d 0, fun _ => .idle, L⟩ (a ++ b) =
        sched (sched ⟨tabR d 0, fun _ => .idle, L⟩ a) b := fun a b => by simp [sched]
    rw [tickEvs, this, ih, tick_seq]
    · have e : (n + 1) % 2 ^ 32 = n + 1 := Nat.mod_eq_of_lt (by omega)
      simp only [tabR, e]
      congr 2
      unfold N; omega
    · rfl
    · rintro ⟨h1, _, h3⟩
      simp only [tabR] at h1 h3
      by_cases c : n % N = 7745
      · rw [c, fill_slot] at h3
        simp only [init, AGE] at h3
        omega
      · rw [fill_other _ _ _ c] at h1; exact absurd rfl h1

/-- The schedule: `macR` is learned, is silent for two hours, and is learned again by thread 1
(which completes the call; `n` is 360001) while the timer, on thread 0, is between its look at the slot and its
store; then thread 1 looks `macR` up. -/
def lost (n d d' : Nat) : List Ev :=
  [.call 0 (.set macR d)] ++ go 0 3 ++ tickEvs n ++ [.call 0 .tick] ++ go 0 2 ++
  [.call 1 (.set macR d')] ++ go 1 3 ++ go 0 1 ++ [.call 1 (.get macR)] ++ go 1 2

/-- C179 refuted: a learned address is unknown right after the call that learned it has returned,
without any tick in between. -/
theorem refresh_lost_violated (n d d' : Nat) (hn : n = 360001) :
    (sched Sys.init (lost n d d')).pc 1 = .ret macR 0 := by
  have app : ∀ s a b, sched s (a ++ b) = sched (sched s a) b := fun s a b => by simp [sched]
  unfold lost
  simp only [app]
  have e1 : sched (sched Sys.init [.call 0 (.set macR d)]) (go 0 3) =
      ⟨tabR d 0, fun _ => .idle, [(macR, d)]⟩ := by
    have hh : home macR = 7745 := by decide +kernel
    have hp : at' (fun _ => Pc.idle) 0 .idle = fun _ => Pc.idle := at_id (fun _ => Pc.idle) 0
    have h0 : ∀ i, Verif.Vxlan.init.slot i = ⟨FREE, 0, 0⟩ := fun _ => rfl
    simp only [sched, go, List.replicate, List.foldl, ev, Sys.init, Pc.free, if_true, begin', logged,
      List.nil_append, at_self, hh, instr, cas, h0, true_or, at_at, put_slot, put_put, hp]
    rfl
  rw [e1, ticks_seq d _ n (by omega)]
  have hc : n % N = 7745 := by unfold N; omega
  have hx : AGE % 2 ^ 32 + AGE < n := by unfold AGE; omega
  clear e1 hn
  have hh : home macR = 7745 := by decide +kernel
  have p1 : ∀ f p q, at' (at' f 0 p) 1 q 0 = p := fun f p q => by simp [at']
  have p2 : ∀ (f : Nat → Pc) p, at' f 0 p 1 = f 1 := fun f p => by simp [at']
  have p3 : ∀ (f : Nat → Pc) p q r, at' (at' (at' f 0 p) 1 q) 0 r 1 = q := fun f p q r => by
    simp [at']
  have nz1 : macR.val ≠ FREE := by decide
  have nz2 : macR.val ≠ RECYC := RECYC_ne macR
  have nz3 : RECYC ≠ macR.val := fun h => nz2 h.symm
  have s0 : (tabR d n).slot 7745 = ⟨macR.val, d, AGE % 2 ^ 32⟩ := by
    simp only [tabR, fill_slot, init, Nat.zero_add]
  have s1 : ∀ i, i ≠ 7745 → (tabR d n).slot i = ⟨FREE, 0, 0⟩ := fun i hi => by
    simp only [tabR, fill_other _ _ _ hi]; rfl
  have s2 : (tabR d n).check = 7745 := by simp only [tabR, hc]
  have s3 : (tabR d n).tick = n := rfl
  have hN : N - 1 = 8190 + 1 := rfl
  have hI : (7745 + 1) % N = 7746 := rfl
  generalize tabR d n = t at *
  have s5 : ∀ a, (t.put 7745 a).slot 7746 = ⟨FREE, 0, 0⟩ := fun a => by
    rw [put_other _ _ (by omega)]; exact s1 _ (by omega)
  simp only [sched, go, List.replicate, List.foldl, ev, Pc.free, if_true, begin', at_self, s2, instr,
    at_at, s0, s3, nz1, nz2, hx, ne_eq, not_false_eq_true, and_self, p1, p2, p3, hh, cas, or_true,
    if_false, put_slot, put_put, nz3, RECYC_ne_FREE, hN, hI, s5]
  have nz4 : ¬ FREE = macR.val := fun h => nz1 h.symm
  rw [if_neg nz4]

end Verif.Vxlan
