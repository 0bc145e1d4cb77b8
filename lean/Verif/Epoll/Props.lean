import Verif.Epoll.Model
/-! # Properties C27 and C28 -/
namespace Verif.Epoll
open Spec

/-- The interest list held in the array: the slots in use. -/
def regs (l : List Slot) : Reg := (l.filter (fun s => s.fd != -1)).map (fun s => (s.fd, s.ev))

theorem regs_nil : regs [] = [] := rfl

theorem regs_cons (s : Slot) (l : List Slot) :
    regs (s :: l) = if s.fd = -1 then regs l else (s.fd, s.ev) :: regs l := by
  unfold regs
  rw [List.filter_cons]
  by_cases h : s.fd = -1 <;> simp [h]

theorem isReg_eq (l : List Slot) (fd : Int) (hf : fd ≠ -1) : isReg l fd = (regs l).has fd := by
  induction l with
  | nil => rfl
  | cons s l ih =>
    rw [regs_cons]
    unfold isReg
    by_cases h : s.fd = fd
    · have : s.fd ≠ -1 := by rw [h]; exact hf
      rw [if_pos h, if_neg this]
      simp [Reg.has, h]
    · rw [if_neg h, ih]
      by_cases h1 : s.fd = -1
      · rw [if_pos h1]
      · rw [if_neg h1]; simp [Reg.has, h]

theorem regs_le (l : List Slot) : (regs l).length ≤ l.length := by
  unfold regs; rw [List.length_map]; exact List.length_filter_le _ _

theorem modify_length : ∀ (l l' : List Slot) (a b : Int) (e : Event), modify l a b e = some l' →
    l'.length = l.length := by
  intro l
  induction l with
  | nil => intro l' a b e h; simp [modify] at h
  | cons s l ih =>
    intro l' a b e h
    unfold modify at h
    split at h
    · cases h; simp
    · rw [Option.map_eq_some_iff] at h
      obtain ⟨m, hm, rfl⟩ := h
      simp [ih m a b e hm]

theorem modify_free (l : List Slot) (fd : Int) (e : Event) (hf : fd ≠ -1) :
    (∀ l', modify l (-1) fd e = some l' →
      (regs l').Perm ((fd, e) :: regs l) ∧ (regs l).length < l.length) ∧
    (modify l (-1) fd e = none → (regs l).length = l.length) := by
  induction l with
  | nil => simp [modify, regs]
  | cons s l ih =>
    unfold modify
    by_cases h : s.fd = -1
    · rw [if_pos h]
      refine ⟨?_, by simp⟩
      intro l' hl'
      cases hl'
      rw [regs_cons, regs_cons, if_pos h]
      have := regs_le l
      exact ⟨by simp [hf], by simp; omega⟩
    · rw [if_neg h]
      constructor
      · intro l' hl'
        rw [Option.map_eq_some_iff] at hl'
        obtain ⟨m, hm, rfl⟩ := hl'
        have := ih.1 m hm
        rw [regs_cons, regs_cons, if_neg h, if_neg h]
        exact ⟨(List.Perm.cons _ this.1).trans (List.Perm.swap _ _ _), by simp; exact this.2⟩
      · intro hn
        rw [Option.map_eq_none_iff] at hn
        rw [regs_cons, if_neg h]
        simp [ih.2 hn]

/-- No descriptor is registered twice. -/
def Inv (l : List Slot) : Prop := ((regs l).map (·.1)).Nodup

theorem has_iff (R : Reg) (fd : Int) : R.has fd = true ↔ fd ∈ R.map (·.1) := by
  unfold Reg.has
  rw [List.any_eq_true, List.mem_map]
  constructor
  · rintro ⟨x, hx, h⟩; exact ⟨x, hx, by simpa using h⟩
  · rintro ⟨x, hx, h⟩; exact ⟨x, hx, by simpa using h⟩

theorem filter_noop (R : Reg) (fd : Int) (h : fd ∉ R.map (·.1)) : R.filter (fun e => e.1 != fd) = R := by
  rw [List.filter_eq_self]
  intro e he
  simp only [bne_iff_ne]
  intro h2; apply h; rw [← h2]; exact List.mem_map_of_mem he

theorem map_noop (R : Reg) (fd : Int) (v : Event) (h : fd ∉ R.map (·.1)) :
    R.map (fun e => if e.1 = fd then (fd, v) else e) = R := by
  have : R.map (fun e => if e.1 = fd then (fd, v) else e) = R.map id := by
    apply List.map_congr_left
    intro e he
    rw [if_neg]; rfl
    intro h2; apply h; rw [← h2]; exact List.mem_map_of_mem he
  rw [this]; simp

theorem modify_used (l : List Slot) (fd new : Int) (e : Event) (hf : fd ≠ -1) (hi : Inv l)
    (hr : (regs l).has fd = true) :
    ∃ l', modify l fd new e = some l' ∧
      (new = -1 → regs l' = (regs l).filter (fun x => x.1 != fd)) ∧
      (new = fd → regs l' = (regs l).map (fun x => if x.1 = fd then (fd, e) else x)) := by
  induction l with
  | nil => simp [regs, Reg.has] at hr
  | cons s l ih =>
    unfold Inv at hi
    rw [regs_cons] at hi hr
    unfold modify
    by_cases h : s.fd = fd
    · have h1 : s.fd ≠ -1 := by rw [h]; exact hf
      rw [if_pos h]
      rw [if_neg h1, List.map_cons, List.nodup_cons] at hi
      simp only [h] at hi
      refine ⟨_, rfl, ?_, ?_⟩
      · intro hn
        rw [regs_cons, if_pos hn, regs_cons, if_neg h1, List.filter_cons]
        simp only [h, bne_self_eq_false]
        rw [filter_noop _ _ hi.1]; simp
      · intro hn
        rw [regs_cons, if_neg (by simp only; rw [hn]; exact hf), regs_cons, if_neg h1, List.map_cons,
          map_noop _ _ _ hi.1]
        simp [h, hn]
    · rw [if_neg h]
      by_cases h1 : s.fd = -1
      · rw [if_pos h1] at hi hr
        obtain ⟨l', a1, a2, a3⟩ := ih hi hr
        refine ⟨s :: l', by rw [a1]; rfl, ?_, ?_⟩
        · intro hn; rw [regs_cons, if_pos h1, regs_cons, if_pos h1]; exact a2 hn
        · intro hn; rw [regs_cons, if_pos h1, regs_cons, if_pos h1]; exact a3 hn
      · rw [if_neg h1] at hi hr
        rw [List.map_cons, List.nodup_cons] at hi
        have hr' : (regs l).has fd = true := by
          rw [has_iff] at hr ⊢
          rw [List.map_cons, List.mem_cons] at hr
          rcases hr with hr | hr
          · exact absurd hr.symm h
          · exact hr
        obtain ⟨l', a1, a2, a3⟩ := ih hi.2 hr'
        refine ⟨s :: l', by rw [a1]; rfl, ?_, ?_⟩
        · intro hn
          rw [regs_cons, if_neg h1, regs_cons, if_neg h1, a2 hn, List.filter_cons]
          simp [h]
        · intro hn
          rw [regs_cons, if_neg h1, regs_cons, if_neg h1, a3 hn, List.map_cons]
          simp [h]

theorem perm_has {R S : Reg} (h : R.Perm S) (fd : Int) : R.has fd = S.has fd := by
  rw [Bool.eq_iff_iff, has_iff, has_iff]
  exact (h.map _).mem_iff

theorem ctlOp_refines (l : List Slot) (R : Reg) (q : Req) (hf : q.fd ≠ -1) (hi : Inv l)
    (hp : (regs l).Perm R) :
    (ctlOp l q).2 = (Spec.ctl l.length R q).2 ∧ (regs (ctlOp l q).1).Perm (Spec.ctl l.length R q).1 ∧
    Inv (ctlOp l q).1 ∧ (ctlOp l q).1.length = l.length := by
  have hreg : isReg l q.fd = R.has q.fd := by rw [isReg_eq l _ hf, perm_has hp]
  have hreg' : (regs l).has q.fd = R.has q.fd := perm_has hp _
  unfold ctlOp Spec.ctl
  by_cases h1 : q.op = 1
  · rw [if_pos h1, if_pos h1, hreg]
    by_cases hh : R.has q.fd = true
    · rw [if_pos hh, if_pos hh]; exact ⟨rfl, hp, hi, rfl⟩
    · rw [if_neg hh, if_neg hh]
      have hm := modify_free l q.fd q.ev hf
      cases hmo : modify l (-1) q.fd q.ev with
      | none =>
        have := hm.2 hmo
        rw [if_pos (by rw [← hp.length_eq]; exact this)]
        exact ⟨rfl, hp, hi, rfl⟩
      | some l' =>
        have := hm.1 l' hmo
        rw [if_neg (by rw [← hp.length_eq]; omega)]
        refine ⟨rfl, this.1.trans (hp.cons _), ?_, modify_length _ _ _ _ _ hmo⟩
        show ((regs l').map (·.1)).Nodup
        rw [(this.1.map (·.1)).nodup_iff, List.map_cons, List.nodup_cons]
        refine ⟨?_, hi⟩
        rw [← has_iff, hreg']; exact hh
  · rw [if_neg h1, if_neg h1]
    by_cases h2 : q.op = 2
    · rw [if_pos h2, if_pos h2, hreg]
      by_cases hh : R.has q.fd = true
      · simp only [hh, Bool.not_true, Bool.false_eq_true, if_false, if_true]
        obtain ⟨l', a1, a2, _⟩ := modify_used l q.fd (-1) ⟨0#32, 0#64⟩ hf hi (by rw [hreg']; exact hh)
        rw [a1]
        refine ⟨rfl, ?_, ?_, modify_length _ _ _ _ _ a1⟩
        · show (regs l').Perm _
          rw [a2 rfl]; exact hp.filter _
        · show ((regs l').map (·.1)).Nodup
          rw [a2 rfl]
          exact hi.sublist (List.filter_sublist.map _)
      · simp only [hh, Bool.not_false, if_true]
        exact ⟨rfl, hp, hi, trivial⟩
    · rw [if_neg h2, if_neg h2]
      by_cases h3 : q.op = 3
      · rw [if_pos h3, if_pos h3, hreg]
        by_cases hh : R.has q.fd = true
        · simp only [hh, Bool.not_true, Bool.false_eq_true, if_false, if_true]
          obtain ⟨l', a1, _, a3⟩ := modify_used l q.fd q.fd q.ev hf hi (by rw [hreg']; exact hh)
          rw [a1]
          refine ⟨rfl, ?_, ?_, modify_length _ _ _ _ _ a1⟩
          · show (regs l').Perm _
            rw [a3 rfl]; exact hp.map _
          · show ((regs l').map (·.1)).Nodup
            rw [a3 rfl, List.map_map]
            have : ((fun x : Int × Event => x.1) ∘ fun x => if x.1 = q.fd then (q.fd, q.ev) else x) =
                (fun x => x.1) := by
              funext x; simp only [Function.comp]; split
              · rename_i h; exact h.symm
              · rfl
            rw [this]; exact hi
        · simp only [hh, Bool.not_false, if_true]
          exact ⟨rfl, hp, hi, trivial⟩
      · rw [if_neg h3, if_neg h3]; exact ⟨rfl, hp, hi, rfl⟩

/-! ## Histories -/

/-- The states reachable on one epoll object by any sequence of `epoll_ctl` calls (the set of open
descriptors, described by `get`, may be different at each call), together with the interest list the user
expects.  Calls refused for their descriptors leave the interest list as it is. -/
inductive Hist (n : Nat) (epfd : Int) : List Slot → Reg → Prop where
  | create (e : Event) : Hist n epfd (fresh n e) []
  | call {l R} (get : Getter) (q : Req) : Hist n epfd l R → get (-1) = none →
      Hist n epfd (ctl get epfd l q).1
        (if epfd = q.fd ∨ get epfd ≠ some true ∨ get q.fd = none then R else (Spec.ctl n R q).1)

theorem fresh_regs (n : Nat) (e : Event) : regs (fresh n e) = [] := by
  induction n with
  | zero => rfl
  | succ n ih => unfold fresh; rw [List.replicate_succ, regs_cons, if_pos rfl]; exact ih

theorem ctl_cases (get : Getter) (epfd : Int) (l : List Slot) (R : Reg) (q : Req) (hg : get (-1) = none)
    (hi : Inv l) (hp : (regs l).Perm R) :
    let ok := ¬ (epfd = q.fd ∨ get epfd ≠ some true ∨ get q.fd = none)
    (ctl get epfd l q).2 = (if epfd = q.fd then some .EINVAL
      else if get epfd = none ∨ get q.fd = none then some .EBADF
      else if get epfd = some false then some .EINVAL
      else (Spec.ctl l.length R q).2) ∧
    (regs (ctl get epfd l q).1).Perm
      (if epfd = q.fd ∨ get epfd ≠ some true ∨ get q.fd = none then R else (Spec.ctl l.length R q).1) ∧
    (¬ ok → (ctl get epfd l q).1 = l) ∧
    Inv (ctl get epfd l q).1 ∧ (ctl get epfd l q).1.length = l.length := by
  intro ok
  unfold ctl
  by_cases h1 : epfd = q.fd
  · simp only [h1, if_true, true_or]
    exact ⟨trivial, hp, fun _ => trivial, hi, trivial⟩
  · simp only [h1, if_false, false_or]
    cases h2 : get epfd with
    | none => simp [hi, hp]
    | some b =>
      cases h3 : get q.fd with
      | none => simp [hi, hp]
      | some c =>
        have hf : q.fd ≠ -1 := by intro h; rw [h, hg] at h3; cases h3
        cases b with
        | false => simp [hi, hp]
        | true =>
          have := ctlOp_refines l R q hf hi hp
          simp only [ok, h2, h3]
          simp [this.1, this.2.1, this.2.2.1, this.2.2.2, h1]

theorem hist_inv {n : Nat} {epfd : Int} {l R} (h : Hist n epfd l R) :
    Inv l ∧ (regs l).Perm R ∧ l.length = n := by
  induction h with
  | create e =>
    refine ⟨?_, by rw [fresh_regs], by simp [fresh]⟩
    unfold Inv; rw [fresh_regs]; simp
  | call get q _ hg ih =>
    obtain ⟨a, b, c⟩ := ih
    have := ctl_cases get epfd _ _ q hg a b
    rw [c] at this
    exact ⟨this.2.2.2.1, this.2.1, this.2.2.2.2⟩

/-- **C27 (partial).** After any history of `epoll_ctl` calls the array holds exactly the interest list the
user expects (no descriptor twice, at most `n`), and the next call returns exactly the specified error, changing
nothing when it fails.  The full claim needs invalid descriptors to be detected; here it is an assumption on the
socket getter (`get (-1) = none`), which the getter of the real program does not meet: see
`ctl_badfd_violated`. -/
theorem ctl_is_map_partial {n : Nat} {epfd : Int} {l R} (h : Hist n epfd l R) (get : Getter)
    (hg : get (-1) = none) (q : Req) :
    (R.map (·.1)).Nodup ∧ R.length ≤ n ∧ (regs l).Perm R ∧
    (ctl get epfd l q).2 = (if epfd = q.fd then some .EINVAL
      else if get epfd = none ∨ get q.fd = none then some .EBADF
      else if get epfd = some false then some .EINVAL
      else (Spec.ctl n R q).2) ∧
    ((ctl get epfd l q).2 ≠ none → (ctl get epfd l q).1 = l) := by
  obtain ⟨a, b, c⟩ := hist_inv h
  have hc := ctl_cases get epfd l R q hg a b
  rw [c] at hc
  refine ⟨(b.map (fun x : Int × Event => x.1)).nodup_iff.1 a, ?_, b, hc.1, ?_⟩
  · rw [← b.length_eq, ← c]; exact regs_le l
  · intro hne
    by_cases hk : ¬ (epfd = q.fd ∨ get epfd ≠ some true ∨ get q.fd = none)
    · -- the request was really executed: look at each operation
      have h1 : epfd ≠ q.fd := fun h => hk (Or.inl h)
      have h2 : get epfd = some true := by
        by_cases h : get epfd = some true
        · exact h
        · exact absurd (Or.inr (Or.inl h)) hk
      obtain ⟨x, h3⟩ : ∃ x, get q.fd = some x := Option.ne_none_iff_exists'.1 (fun h => hk (Or.inr (Or.inr h)))
      have hop : ctl get epfd l q = ctlOp l q := by
        unfold ctl; rw [if_neg h1, h2, h3]; rfl
      rw [hop] at hne ⊢
      have key : ∀ o, (setFd l o).2 ≠ none → (setFd l o).1 = l := by
        intro o ho; cases o with
        | none => rfl
        | some l' => exact absurd rfl ho
      unfold ctlOp at hne ⊢
      repeat' split
      all_goals first | rfl | skip
      all_goals (apply key; revert hne; simp_all)
    · exact hc.2.2.1 hk

/-- **C27 violated (bad descriptor).** With the getter of the program, a descriptor outside the socket table is
accepted instead of EBADF (and later dereferenced by `epoll_wait`), and deleting descriptor -1 "succeeds". -/
theorem ctl_badfd_violated (kind : Int → Bool) (hk : kind 1024 = true) (e : Event) :
    (ctl (realGetter kind) 1024 (fresh 16 e) ⟨1, 5000000, e⟩).2 = none ∧
    (ctl (realGetter kind) 1024 (fresh 16 e) ⟨2, -1, e⟩).2 = none := by
  simp [ctl, realGetter, hk, ctlOp, fresh, isReg, modify, setFd, List.replicate]

/-! ## C28 -/

theorem avail_spec (r : Int → Bool) : ∀ (l : List Slot) (n : Nat),
    avail r n l = ((ready r (regs l)).take n).map (·.2) := by
  intro l
  induction l with
  | nil => intro n; simp [avail, regs, ready]
  | cons s l ih =>
    intro n
    unfold avail
    rw [regs_cons]
    by_cases h1 : s.fd = -1
    · rw [if_pos h1]
      have : isReady r s = false := by simp [isReady, h1]
      rw [this]; simp [ih]
    · rw [if_neg h1]
      have : isReady r s = (s.ev.wantsIn && r s.fd) := by simp [isReady, h1]
      unfold ready
      rw [List.filter_cons]
      simp only
      rw [this]
      by_cases h2 : (s.ev.wantsIn && r s.fd) = true
      · rw [if_pos h2, h2]
        cases n with
        | zero =>
          have := ih 0
          simp at this ⊢; exact this
        | succ n =>
          simp only [Nat.succ_pos, decide_true, Bool.and_true, if_true, List.take_succ_cons, List.map_cons]
          rw [← ready, ← ih]; rfl
      · simp only [h2, Bool.and_false, Bool.false_eq_true, if_false]
        exact ih n

theorem noneReady_spec (r : Int → Bool) (l : List Slot) : noneReady r l = (ready r (regs l)).isEmpty := by
  induction l with
  | nil => rfl
  | cons s l ih =>
    unfold noneReady
    rw [regs_cons]
    by_cases h1 : s.fd = -1
    · have : isReady r s = false := by simp [isReady, h1]
      rw [if_pos h1, this]; simpa using ih
    · have : isReady r s = (s.ev.wantsIn && r s.fd) := by simp [isReady, h1]
      rw [if_neg h1, this]
      unfold ready
      rw [List.filter_cons]
      by_cases h2 : (s.ev.wantsIn && r s.fd) = true
      · rw [if_pos h2, if_pos h2]; rfl
      · rw [if_neg h2, if_neg h2]; exact ih

/-- **C28.** `epoll_wait` with legal arguments (timeout below 2147484 ms) on an epoll object with interest list
`R`: it sleeps exactly when the timeout is not 0 and nothing is ready (for ever if it is -1), and then reports
`min maxevents k` events, `k` being the number of descriptors registered for input and readable at that moment:
the events registered for that many different ready descriptors, all of them if `k ≤ maxevents`.
`l1`, `R1`, `r1` describe the situation after the sleep. -/
theorem wait_reports_ready {n : Nat} {epfd : Int} {l R l1 R1} (h : Hist n epfd l R) (h1 : Hist n epfd l1 R1)
    (r r1 : Int → Bool) (maxevents timeout : Int) (hm : 1 ≤ maxevents) (ht : -1 ≤ timeout)
    (ht2 : timeout ≤ 2147483) :
    let sleeps := timeout ≠ 0 ∧ ready r R = []
    ∃ slept out, wait (some true) false maxevents timeout l r l1 r1 = .ok slept out ∧
      (slept = if sleeps then some (if timeout = -1 then 0 else 1000 * timeout.toNat) else none) ∧
      ∃ sel rest : Reg, (sel ++ rest).Perm (if sleeps then ready r1 R1 else ready r R) ∧ out = sel.map (·.2) ∧
        (sel.map (·.1)).Nodup ∧
        sel.length = min maxevents.toNat (if sleeps then ready r1 R1 else ready r R).length := by
  intro sleeps
  obtain ⟨_, hp, _⟩ := hist_inv h
  have hrd : (ready r (regs l)).Perm (ready r R) := hp.filter _
  have key : ∀ {l R} (_ : Hist n epfd l R) (r : Int → Bool), ∃ sel rest : Reg, (sel ++ rest).Perm (ready r R) ∧
      avail r maxevents.toNat l = sel.map (·.2) ∧ (sel.map (·.1)).Nodup ∧
      sel.length = min maxevents.toNat (ready r R).length := by
    intro l R h r
    obtain ⟨hi, hp, _⟩ := hist_inv h
    have hrd : (ready r (regs l)).Perm (ready r R) := hp.filter _
    refine ⟨(ready r (regs l)).take maxevents.toNat, (ready r (regs l)).drop maxevents.toNat, ?_, ?_, ?_, ?_⟩
    · rw [List.take_append_drop]; exact hrd
    · exact avail_spec r l _
    · exact List.Nodup.sublist (((List.take_sublist _ _).trans List.filter_sublist).map _) hi
    · rw [List.length_take, hrd.length_eq]
  have hns : noneReady r l = true ↔ ready r R = [] := by
    rw [noneReady_spec, List.isEmpty_iff]
    constructor
    · intro h; rw [h] at hrd; exact hrd.nil_eq.symm
    · intro h; rw [h] at hrd; exact hrd.eq_nil
  unfold wait
  have e1 : (!true || decide (maxevents < 1)) = false := by simp; omega
  have e2 : ¬ (timeout < 0 ∧ timeout ≠ -1) := by omega
  simp only [e1, Bool.false_eq_true, if_false, e2]
  by_cases hs : sleeps
  · have hs' : timeout ≠ 0 ∧ noneReady r l = true := ⟨hs.1, hns.2 hs.2⟩
    rw [if_pos hs']
    simp only [if_pos hs]
    obtain ⟨sel, rest, k1, k2, k3, k4⟩ := key h1 r1
    by_cases hm1 : timeout = -1
    · simp only [hm1, if_true]
      refine ⟨_, _, by rw [if_neg (by decide)], by simp, sel, rest, k1, k2, k3, k4⟩
    · simp only [hm1, if_false]
      have : ¬ (timeout * 1000 ≥ 2 ^ 31) := by omega
      rw [if_neg this]
      exact ⟨_, _, rfl, by simp; omega, sel, rest, k1, k2, k3, k4⟩
  · have hs' : ¬ (timeout ≠ 0 ∧ noneReady r l = true) := fun hh => hs ⟨hh.1, hns.1 hh.2⟩
    rw [if_neg hs']
    simp only [if_neg hs]
    obtain ⟨sel, rest, k1, k2, k3, k4⟩ := key h r
    exact ⟨_, _, rfl, rfl, sel, rest, k1, k2, k3, k4⟩

/-- **C28, errors.** The error cases of `epoll_wait`, in the order of the code; nothing is reported. -/
theorem wait_errors (ep : Option Bool) (evNull : Bool) (maxevents timeout : Int) (l l1 : List Slot)
    (r r1 : Int → Bool) :
    (ep = none → wait ep evNull maxevents timeout l r l1 r1 = .err .EBADF) ∧
    (ep = some false ∨ (ep = some true ∧ maxevents < 1) →
      wait ep evNull maxevents timeout l r l1 r1 = .err .EINVAL) ∧
    (ep = some true → 1 ≤ maxevents → evNull = true →
      wait ep evNull maxevents timeout l r l1 r1 = .err .EFAULT) ∧
    (ep = some true → 1 ≤ maxevents → evNull = false → timeout < -1 →
      wait ep evNull maxevents timeout l r l1 r1 = .err .EINVAL) := by
  refine ⟨by rintro rfl; rfl, ?_, ?_, ?_⟩
  · rintro (rfl | ⟨rfl, h⟩)
    · simp [wait]
    · simp [wait, h]
  · rintro rfl h1 rfl
    have : ¬ maxevents < 1 := by omega
    simp [wait, this]
  · rintro rfl h1 rfl h2
    have : ¬ maxevents < 1 := by omega
    have h3 : timeout < 0 ∧ timeout ≠ -1 := by omega
    simp [wait, this, h3]

/-- **C28 violated for long timeouts.** With a timeout of 2147484 ms (36 minutes) and nothing ready the
multiplication by 1000 overflows `int`: undefined behaviour. -/
theorem wait_long_timeout_violated (e : Event) :
    wait (some true) false 1 2147484 (fresh 16 e) (fun _ => false) (fresh 16 e) (fun _ => false) = .ub := by
  have : noneReady (fun _ => false) (fresh 16 e) = true := by
    rw [noneReady_spec, fresh_regs]; rfl
  simp [wait, this]

-- Non-vacuity: two descriptors registered, one deleted again, one ready.
example : ∃ l R, Hist 16 1024 l R ∧ R = [(1026, ⟨1#32, 7#64⟩)] := by
  let g : Getter := fun fd => if fd = -1 then none else some (fd == 1024)
  refine ⟨_, _, .call g ⟨2, 1025, ⟨0#32, 0#64⟩⟩ (.call g ⟨1, 1026, ⟨1#32, 7#64⟩⟩
    (.call g ⟨1, 1025, ⟨1#32, 5#64⟩⟩ (.create ⟨0#32, 0#64⟩) rfl) rfl) rfl, ?_⟩
  decide +kernel

end Verif.Epoll
