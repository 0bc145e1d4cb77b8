import Verif.Sock.Spec
/-! # Who holds a socket: invariant -/
namespace Verif.Sock

/-- The holder of a socket.  `loose`: nobody but TCP (`SS_PROTOREF`), or a call that is about to free it; `fresh h`: under
construction by `ofp_sonewconn`; `lost`: nobody, forever. -/
inductive Own where
  | out | free | user | comp (h : Nat) | incomp (h : Nat) | taken | aborting | lost | loose | fresh (h : Nat)
deriving DecidableEq

/-- Is the holder a list. -/
def Own.listed : Own → Bool
  | .free => true | .user => true | .comp _ => true | .incomp _ => true | .taken => true | .aborting => true
  | _ => false

/-- The list. -/
def cont (s : S) (op : List Nat) : Own → List Nat
  | .free => s.free
  | .user => op
  | .comp h => (s.so h).comp
  | .incomp h => (s.so h).incomp
  | .taken => s.taken
  | .aborting => s.aborting
  | _ => []

def cnt : Own → Nat | .user => 1 | .taken => 1 | .lost => 1 | _ => 0
def nf : Own → Bool | .user => false | .lost => false | _ => true
def hd : Own → Option Nat | .comp h => some h | .incomp h => some h | .fresh h => some h | _ => none
def isComp : Own → Bool | .comp _ => true | _ => false
def isInc : Own → Bool | .incomp _ => true | _ => false

/-- The protocol's reference. -/
def Refs (o : So) (p : Pcb) : Prop :=
  p.sockref = o.proto ∧ (o.proto = true → p.tcp = true ∧ p.dropped = false ∧ (p.phase = .est ∨ p.tw = true)) ∧
  (p.tw = true → p.phase = .est)

/-- A user's socket. -/
def GoodUser (o : So) (p : Pcb) : Prop :=
  (o.accepting = true ↔ p.phase = .listen) ∧ (o.proto = true → o.pc = 2) ∧
  (o.pc = 2 → p.tcp = true → p.dropped = true ∨ p.tw = true ∨ o.proto = true) ∧
  (o.accepting = false → o.comp = [] ∧ o.incomp = [])

/-- Any other socket in use. -/
def GoodOther (w : Own) (o : So) (p : Pcb) : Prop :=
  (p.phase = .listen → p.tcp = true → p.dropped = true) ∧ o.comp = [] ∧ o.incomp = [] ∧
  (w ≠ .loose → o.proto = false ∧ p.tcp = true ∧ o.accepting = false ∧ o.pc = 0 ∧ p.phase ≠ .listen)

/-- What the fields of a socket look like for each holder. -/
def Good (o : So) (w : Own) : Prop :=
  if w = .out ∨ w = .free then o.comp = [] ∧ o.incomp = [] ∧ o.pcb = none
  else (∃ p, o.pcb = some p ∧ Refs o p ∧ (if w = .user then GoodUser o p else GoodOther w o p)) ∧
    o.count = cnt w ∧ o.nofd = nf w ∧ o.head = hd w ∧ o.sqComp = isComp w ∧ o.sqInc = isInc w

/-- The invariant. -/
structure Inv (n : Nat) (s : S) (op : List Nat) (own : Nat → Own) : Prop where
  good : ∀ i, Good (s.so i) (own i)
  out : ∀ i, own i = .out ↔ n ≤ i
  mem : ∀ w : Own, w.listed = true → ∀ i, i ∈ cont s op w ↔ own i = w
  nodup : ∀ w : Own, w.listed = true → (cont s op w).Nodup
  ql : ∀ h, (s.so h).qlen = (s.so h).comp.length
  il : ∀ h, (s.so h).incqlen = (s.so h).incomp.length
  ok : s.crash = false ∧ s.strays = 0

/-- Every loose socket, except perhaps `x`, is held by TCP. -/
def Tight (s : S) (own : Nat → Own) (x : Option Nat) : Prop := ∀ i, own i = .loose → x ≠ some i → (s.so i).proto = true

/-- Change the holder of `i`. -/
def setOwn (own : Nat → Own) (i : Nat) (w : Own) : Nat → Own := fun j => if j = i then w else own j

@[simp] theorem upd_same (s : S) (i : Nat) (f : So → So) : (s.upd i f).so i = f (s.so i) := by simp [S.upd]
theorem upd_ne (s : S) {i j : Nat} (f : So → So) (h : j ≠ i) : (s.upd i f).so j = s.so j := by simp [S.upd, h]
theorem upd_so (s : S) (i j : Nat) (f : So → So) : (s.upd i f).so j = if j = i then f (s.so i) else s.so j := rfl

section
variable {n : Nat} {s : S} {op : List Nat} {own : Nat → Own}

theorem Inv.lt (h : Inv n s op own) {i : Nat} (hi : own i ≠ .out) : i < n := by
  rcases Nat.lt_or_ge i n with q | q
  · exact q
  · exact absurd ((h.out i).2 q) hi

/-- A socket with a queue belongs to the user. -/
theorem Inv.user_of_queue (h : Inv n s op own) {k : Nat} (hq : (s.so k).comp ≠ [] ∨ (s.so k).incomp ≠ []) :
    own k = .user ∧ (s.so k).accepting = true := by
  have g := h.good k
  unfold Good at g
  by_cases c : own k = .out ∨ own k = .free
  · rw [if_pos c] at g
    rcases hq with q | q
    · exact absurd g.1 q
    · exact absurd g.2.1 q
  · rw [if_neg c] at g
    obtain ⟨⟨p, _, _, g⟩, _⟩ := g
    by_cases c : own k = .user
    · rw [if_pos c] at g
      refine ⟨c, ?_⟩
      by_cases a : (s.so k).accepting = true
      · exact a
      · obtain ⟨a1, a2⟩ := g.2.2.2 (by simpa using a)
        rcases hq with q | q
        · exact absurd a1 q
        · exact absurd a2 q
    · rw [if_neg c] at g
      rcases hq with q | q
      · exact absurd g.2.1 q
      · exact absurd g.2.2.1 q

/-- A change of one record that keeps its holder and its queues. -/
theorem Inv.upd (h : Inv n s op own) (i : Nat) (f : So → So) (hg : Good (f (s.so i)) (own i))
    (h1 : (f (s.so i)).comp = (s.so i).comp) (h2 : (f (s.so i)).incomp = (s.so i).incomp)
    (h3 : (f (s.so i)).qlen = (s.so i).qlen) (h4 : (f (s.so i)).incqlen = (s.so i).incqlen) : Inv n (s.upd i f) op own := by
  have hc : ∀ k, ((s.upd i f).so k).comp = (s.so k).comp := by
    intro k; rw [upd_so]; split
    · rename_i q; rw [q]; exact h1
    · rfl
  have hi : ∀ k, ((s.upd i f).so k).incomp = (s.so k).incomp := by
    intro k; rw [upd_so]; split
    · rename_i q; rw [q]; exact h2
    · rfl
  have hcont : ∀ w, cont (s.upd i f) op w = cont s op w := by
    intro w
    cases w <;> first | rfl | exact hc _ | exact hi _
  refine ⟨?_, h.out, ?_, ?_, ?_, ?_, h.ok⟩
  · intro k; rw [upd_so]; split
    · rename_i q; rw [q]; exact hg
    · exact h.good k
  · intro w hw k; rw [hcont]; exact h.mem w hw k
  · intro w hw; rw [hcont]; exact h.nodup w hw
  · intro k; rw [hc, upd_so]; split
    · rename_i q; rw [h3, q]; exact h.ql i
    · exact h.ql k
  · intro k; rw [hi, upd_so]; split
    · rename_i q; rw [h4, q]; exact h.il i
    · exact h.il k

/-- The holder of one socket changes. -/
theorem Inv.move (h : Inv n s op own) {s' : S} {op' : List Nat} {i : Nat} {w w' : Own} (hi : own i = w) (hne : w ≠ w')
    (hw : w ≠ .out) (hw' : w' ≠ .out)
    (hg : ∀ k, Good (s'.so k) (setOwn own i w' k))
    (c1 : w.listed = true → cont s' op' w = (cont s op w).erase i)
    (c2 : w'.listed = true → (cont s' op' w').Perm (i :: cont s op w'))
    (c3 : ∀ v, v ≠ w → v ≠ w' → cont s' op' v = cont s op v)
    (hl : ∀ k, (s'.so k).qlen = (s'.so k).comp.length ∧ (s'.so k).incqlen = (s'.so k).incomp.length)
    (hk : s'.crash = false ∧ s'.strays = 0) : Inv n s' op' (setOwn own i w') := by
  refine ⟨hg, ?_, ?_, ?_, fun k => (hl k).1, fun k => (hl k).2, hk⟩
  · intro k
    unfold setOwn
    split
    · rename_i q; subst q
      constructor
      · intro c; exact absurd c hw'
      · intro c; exact absurd (hi.symm.trans ((h.out k).2 c)) hw
    · exact h.out k
  · intro v hv k
    by_cases e1 : v = w
    · subst e1
      rw [c1 hv, (h.nodup v hv).mem_erase_iff, h.mem v hv]
      unfold setOwn
      by_cases e : k = i
      · rw [if_pos e]; subst e; simp [Ne.symm hne]
      · rw [if_neg e]; simp [e]
    · by_cases e2 : v = w'
      · subst e2
        rw [(c2 hv).mem_iff, List.mem_cons, h.mem v hv]
        unfold setOwn
        by_cases e : k = i
        · rw [if_pos e]; simp [e]
        · rw [if_neg e]; simp [e]
      · rw [c3 v e1 e2, h.mem v hv]
        unfold setOwn
        by_cases e : k = i
        · rw [if_pos e]; subst e; rw [hi]
          constructor
          · intro c; exact absurd c.symm e1
          · intro c; exact absurd c.symm e2
        · rw [if_neg e]
  · intro v hv
    by_cases e1 : v = w
    · subst e1; rw [c1 hv]; exact (h.nodup v hv).erase _
    · by_cases e2 : v = w'
      · subst e2
        rw [(c2 hv).nodup_iff, List.nodup_cons]
        refine ⟨?_, h.nodup v hv⟩
        rw [h.mem v hv, hi]; exact hne
      · rw [c3 v e1 e2]; exact h.nodup v hv

end
end Verif.Sock
