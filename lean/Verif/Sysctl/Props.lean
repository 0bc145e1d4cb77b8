import Verif.Sysctl.Names
/-!
# Properties of the sysctl interface: names and access
-/
namespace Verif.Sysctl

/-! ## Names -/

/-- Access to an entry: what a call for it does, however it was found. -/
def access (vs : Vars) (o : Oid) (old : Option Nat) (new : Option (List UInt8)) : Vars × Res :=
  let r : Req := ⟨old.isSome, old.getD 0, 0, [], new, 0⟩
  let x := if o.node ∧ o.handler = .none then (some .isdir, vs, r)
    else if r.new.isSome ∧ o.write = false then (some .perm, vs, r)
    else handle vs o.handler r
  (x.2.1, ⟨x.1, x.2.2.out,
    if x.1 = none ∨ x.1 = some .nomem then
      some (if old.isSome ∧ x.2.2.oldidx > old.getD 0 then old.getD 0 else x.2.2.oldidx)
    else none⟩)

/-- There is no such thing. -/
def absent (vs : Vars) : Vars × Res := (vs, ⟨some .noent, [], none⟩)

theorem sysctl_access {t : Tree} {s : List Char} {ns : List Int} {o : Oid} {r : List Int} (h1 : name2oid t s = .ok ns)
    (h2 : findOid t 0 maxName ns = .ok (o, r)) (vs : Vars) (old : Option Nat) (new : Option (List UInt8)) :
    sysctl t vs s old new = access vs o old new := by
  unfold sysctl
  rw [h1]
  simp only [root, h2, access]

theorem name2oid_dotted {t : Tree} {cs : List (List Char)} (hne : cs ≠ []) (hp : ∀ c ∈ cs, Plain c)
    (hlen : (dotted cs).length < 1024) : name2oid t (dotted cs) = walk t 0 maxName (dotted cs) := by
  unfold name2oid
  rw [if_neg (fun h => (dotted_ne hne hp).1 (List.length_eq_zero_iff.mp h)), if_neg (by omega), dotted_trim hne hp]

/-- **C213**: if numbers are given out with care, a call with a dotted name does what the entry registered under this path
does, and there is no such entry if the path is not registered (or longer than 24). -/
theorem names_partial {t : Tree} (hr : FairReach t) {cs : List (List Char)} (hne : cs ≠ []) (hp : ∀ c ∈ cs, Plain c)
    (hlen : (dotted cs).length < 1024) (vs : Vars) (old : Option Nat) (new : Option (List UInt8)) :
    (∀ o, At t 0 cs o → cs.length ≤ 24 → sysctl t vs (dotted cs) old new = access vs o old new) ∧
    ((∀ o, ¬ At t 0 cs o) ∨ 24 < cs.length → sysctl t vs (dotted cs) old new = absent vs) := by
  constructor
  · intro o ho hk
    obtain ⟨ns, h1, h2, _⟩ := walk_at hr.reach.inv hr.num.1 ho hp (k := maxName) hk
    exact sysctl_access (by rw [name2oid_dotted hne hp hlen]; exact h1) h2 vs old new
  · intro h
    have hw : walk t 0 maxName (dotted cs) = .error .noent := by
      cases hw : walk t 0 maxName (dotted cs) with
      | error e => rw [walk_err hw]
      | ok ns =>
        obtain ⟨⟨o, ho⟩, hk⟩ := at_walk hne hp hw
        rcases h with h | h
        · exact absurd ho (h o)
        · unfold maxName at hk; omega
    unfold sysctl
    rw [name2oid_dotted hne hp hlen, hw]
    rfl

/-- **C213**: a dot at the end makes no difference. -/
theorem trailing_dot {t : Tree} {cs : List (List Char)} (hne : cs ≠ []) (hp : ∀ c ∈ cs, Plain c)
    (hlen : (dotted cs).length < 1023) (vs : Vars) (old : Option Nat) (new : Option (List UInt8)) :
    sysctl t vs (dotted cs ++ ['.']) old new = sysctl t vs (dotted cs) old new := by
  have h1 : name2oid t (dotted cs ++ ['.']) = name2oid t (dotted cs) := by
    rw [name2oid_dotted hne hp (by omega)]
    unfold name2oid
    rw [if_neg (by simp), if_neg (by simp; omega)]
    unfold trim
    rw [if_pos (by simp)]
    simp
  unfold sysctl
  rw [h1]

theorem findNumber_insert {o p : Oid} {os : List Oid} (hs : os.Pairwise (fun a b => a.number ≤ b.number)) (hp : p ∈ os)
    (hn : o.number = p.number) : findNumber o.number (insertOid o os) = findNumber o.number os := by
  induction os with
  | nil => simp at hp
  | cons q qs ih =>
    have hq := List.pairwise_cons.mp hs
    have hle : q.number ≤ o.number := by
      rcases List.mem_cons.mp hp with rfl | hp
      · omega
      · have := hq.1 p hp; omega
    unfold insertOid
    rw [if_neg (by omega)]
    simp only [findNumber]
    split
    · rfl
    · rename_i h
      rcases List.mem_cons.mp hp with rfl | hp
      · exact absurd hn.symm h
      · exact ih hq.2 hp

/-- **C213, violated**: if an entry is added with a number that a sibling has (it may be an automatic one, from 256 on), the
call that names the new entry goes to a sibling, always. -/
theorem duplicate_number_violated {t : Tree} (hr : Reach t) (h1 : 0 < t.used) {p : Oid} (hp : p ∈ t.lists 0) (o : Oid)
    (hn : o.number = p.number) (ha : o.number ≠ auto) (hnew : ∀ q ∈ t.lists 0, q.name ≠ o.name) (hpl : Plain o.name)
    (hlen : o.name.length < 1024) :
    ∃ q ∈ t.lists 0, q.name ≠ o.name ∧ ∀ vs old new,
      sysctl (apply t (.add 0 o)) vs o.name old new = access vs q old new := by
  have hi := hr.inv
  have hi' := apply_inv hi (op := .add 0 o) h1
  have hf := findName_none.mpr hnew
  let o' : Oid := if o.node then { o with child := t.used } else o
  have ho' : o'.name = o.name ∧ o'.number = o.number := by
    show (if o.node then { o with child := t.used } else o).name = _ ∧ _
    simp only [o']
    split <;> exact ⟨rfl, rfl⟩
  have hl : (apply t (.add 0 o)).lists 0 = insertOid o' (t.lists 0) := by
    rcases add_cases t 0 o with ⟨q, h, _⟩ | ⟨_, h⟩
    · rw [hf] at h; simp at h
    · show (addOid t 0 o).1.lists 0 = _
      rw [h, (register_lists (by show findName o'.name (t.lists 0) = none; rw [ho'.1]; exact hf)).2]
      rw [if_neg (by show o'.number ≠ auto; rw [ho'.2]; exact ha)]
  have hmem : o' ∈ (apply t (.add 0 o)).lists 0 := by rw [hl]; exact mem_insertOid.mpr (.inl rfl)
  have hw : name2oid (apply t (.add 0 o)) o.name = .ok [o.number] := by
    have h0 : o.name = dotted [o.name] := rfl
    have := name2oid_dotted (t := apply t (.add 0 o)) (cs := [o.name]) (by simp) (by simpa using hpl) (by exact hlen)
    rw [← h0] at this
    rw [this]
    show walk _ 0 (23 + 1) o.name = _
    simp only [walk, cut_last hpl.2, findName_mem (hi'.names 0) hmem ho'.1, ho'.2]
  have hfn : ∃ q, findNumber o.number (t.lists 0) = some q := by
    have : ∀ os : List Oid, p ∈ os → ∃ q, findNumber o.number os = some q := by
      intro os hos
      induction os with
      | nil => simp at hos
      | cons a as ih =>
        unfold findNumber
        split
        · exact ⟨a, rfl⟩
        · rename_i h
          rcases List.mem_cons.mp hos with rfl | hos
          · exact absurd hn.symm h
          · exact ih hos
    exact this _ hp
  obtain ⟨q, hq⟩ := hfn
  obtain ⟨hqm, _⟩ := findNumber_some hq
  refine ⟨q, hqm, hnew q hqm, fun vs old new => sysctl_access (r := []) hw ?_ vs old new⟩
  show findOid _ 0 (23 + 1) [o.number] = _
  have : findNumber o.number ((apply t (.add 0 o)).lists 0) = some q := by
    rw [hl, ← ho'.2, findNumber_insert (hi.sorted 0) hp (by rw [ho'.2]; exact hn), ho'.2]; exact hq
  simp only [findOid, this]
  cases q.node <;> simp

/-! ## Adding entries -/

/-- Paths are kept if lists only grow. -/
theorem At.mono {t t' : Tree} (h : ∀ l, ∀ o ∈ t.lists l, o ∈ t'.lists l) {l : Nat} {cs : List (List Char)} {o : Oid}
    (ha : At t l cs o) : At t' l cs o := by
  induction ha with
  | leaf hm hc => exact .leaf (h _ _ hm) hc
  | node hm hc hn hh _ ih => exact .node (h _ _ hm) hc hn hh ih

/-- **C214**: `ofp_sysctl_add_oid` with a name that is taken changes nothing, and gives back the entry if it is a node;
with a new name it adds one entry with what was asked for (the number if none was asked for, and the list of children of a
node, are chosen), under every path of its parent; everything registered before is there still, and nothing else. -/
theorem add_exact {t : Tree} (hr : Reach t) {l : Nat} (hl : l < t.used) (o : Oid) :
    (∀ p ∈ t.lists l, p.name = o.name → addOid t l o = (t, if p.node then some p else none)) ∧
    ((∀ p ∈ t.lists l, p.name ≠ o.name) → ∃ o', (addOid t l o).2 = some o' ∧
      o' = { o with number := o'.number, child := o'.child } ∧ (o.number ≠ auto → o'.number = o.number) ∧
      (∀ i cs p, At t i cs p → At (addOid t l o).1 i cs p) ∧
      At (addOid t l o).1 l [o.name] o' ∧
      (∀ i cs p, i < t.used → At (addOid t l o).1 i cs p → At t i cs p ∨ p = o')) := by
  have hi := hr.inv
  constructor
  · intro p hp hn
    have hf := findName_mem (hi.names l) hp hn
    rcases add_cases t l o with ⟨q, h1, h2⟩ | ⟨h1, _⟩
    · rw [hf] at h1; obtain rfl := Option.some.inj h1; exact h2
    · rw [hf] at h1; simp at h1
  · intro hnew
    have hf := findName_none.mpr hnew
    have hi' := apply_inv hi (op := .add l o) hl
    simp only [apply] at hi'
    let o1 : Oid := if o.node then { o with child := t.used } else o
    let t1 : Tree := { t with used := if o.node then t.used + 1 else t.used }
    have h1 : (addOid t l o).1 = register t1 l o1 := by
      rcases add_cases t l o with ⟨q, h, _⟩ | ⟨_, h⟩
      · rw [hf] at h; simp at h
      · exact h
    have hname : o1.name = o.name := by simp only [o1]; split <;> rfl
    have hnum : o1.number = o.number := by simp only [o1]; split <;> rfl
    have hf1 : findName o1.name (t1.lists l) = none := by rw [hname]; exact hf
    obtain ⟨ha, hb⟩ := register_lists hf1
    let o2 : Oid := if o1.number = auto then { o1 with number := t1.newoid } else o1
    have hb' : (addOid t l o).1.lists l = insertOid o2 (t.lists l) := by rw [h1]; exact hb
    have ha' : ∀ i, i ≠ l → (addOid t l o).1.lists i = t.lists i := by rw [h1]; exact ha
    have ho2 : o2.name = o.name := by simp only [o2]; split <;> exact hname
    have hmem : o2 ∈ (addOid t l o).1.lists l := by rw [hb']; exact mem_insertOid.mpr (.inl rfl)
    have hnode : o2.node = o.node := by
      simp only [o2, o1]; split <;> split <;> rfl
    have hfresh : ∀ i, t.used ≤ i → (addOid t l o).1.lists i = [] := by
      intro i hi2
      rw [ha' i (by omega)]; exact hi.fresh i hi2
    refine ⟨o2, ?_, ?_, ?_, ?_, .leaf hmem ho2, ?_⟩
    · have : (addOid t l o).2 = findName o.name ((addOid t l o).1.lists l) := by
        unfold addOid
        rw [hf]
        simp only
        cases hno : o.node <;> simp [hno]
      rw [this]
      exact findName_mem (hi'.names l) hmem ho2
    · simp only [o2, o1]
      cases hno : o.node <;> simp only [Bool.false_eq_true, if_false, if_true] <;> split <;> first | rfl | (cases o; simp_all)
    · intro hna
      simp only [o2]
      rw [if_neg (by rw [hnum]; exact hna), hnum]
    · intro i cs p hat
      refine hat.mono fun j q hq => ?_
      by_cases hj : j = l
      · subst hj; rw [hb']; exact mem_insertOid.mpr (.inr hq)
      · rw [ha' j hj]; exact hq
    · intro i cs p hiu hat
      have hold : ∀ j q, q ∈ (addOid t l o).1.lists j → q ∈ t.lists j ∨ q = o2 := by
        intro j q hq
        by_cases hj : j = l
        · subst hj; rw [hb'] at hq
          rcases mem_insertOid.mp hq with h | h
          · exact .inr h
          · exact .inl h
        · rw [ha' j hj] at hq; exact .inl hq
      induction hat with
      | leaf hm hc =>
        rcases hold _ _ hm with h | h
        · exact .inl (.leaf h hc)
        · exact .inr h
      | @node i c q c' cs p hm hc hn hh hrest ih =>
        rcases hold _ _ hm with h | h
        · rcases ih (hi.child _ _ h hn) with h' | h'
          · exact .inl (.node h hc hn hh h')
          · exact .inr h'
        · -- the new node has no children
          exfalso
          subst h
          rw [hnode] at hn
          have hch : o2.child = t.used := by
            simp only [o2, o1]; rw [if_pos hn]; split <;> rfl
          cases hrest with
          | leaf hm' _ => rw [hch, hfresh _ (Nat.le_refl _)] at hm'; simp at hm'
          | node hm' _ _ _ _ => rw [hch, hfresh _ (Nat.le_refl _)] at hm'; simp at hm'

/-! ## Access -/

/-- What a read of `b` into the buffer gives, if no error comes. -/
def readOut (old : Option Nat) (b : List UInt8) : List UInt8 := if old.isSome then b else []

/-- **C215**: access to a number (of 4 or 8 bytes) or structure.  A buffer for the old value that is too short gets what
fits; nothing is changed.  Otherwise the old value is read, whole.  A new value that is too short is refused, of a longer
one the beginning is taken; then the variable has the new value, and no other changes. -/
theorem number_exact (vs : Vars) (o : Oid) (v size : Nat) (ho : o.handler = .number v size ∨ o.handler = .opaque v size)
    (hv : (vs v).length = size) (old : Option Nat) (new : Option (List UInt8)) :
    (new.isSome → o.write = false → access vs o old new = (vs, ⟨some .perm, [], none⟩)) ∧
    ((new = none ∨ o.write = true) →
      (∀ n, old = some n → n < size → access vs o old new = (vs, ⟨some .nomem, (vs v).take n, some n⟩)) ∧
      ((∀ n, old = some n → size ≤ n) →
        (new = none → access vs o old new = (vs, ⟨none, readOut old (vs v), some size⟩)) ∧
        (∀ b, new = some b → b.length < size →
          access vs o old new = (vs, ⟨some .inval, readOut old (vs v), none⟩)) ∧
        (∀ b, new = some b → size ≤ b.length →
          access vs o old new = (set vs v (b.take size), ⟨none, readOut old (vs v), some size⟩)))) := by
  have hh : ¬ (o.node = true ∧ o.handler = .none) := by rcases ho with h | h <;> simp [h]
  have hd : ∀ r, handle vs o.handler r = doNumber vs v size r := by
    intro r; rcases ho with h | h <;> simp only [h, handle]
  unfold access
  simp only [if_neg hh]
  constructor
  · intro h1 h2
    rw [if_pos ⟨h1, h2⟩]
    simp
  · intro h
    have hw : ¬ (new.isSome = true ∧ o.write = false) := by
      rintro ⟨h1, h2⟩
      rcases h with h | h
      · simp [h] at h1
      · simp [h] at h2
    simp only [if_neg hw, hd]
    constructor
    · rintro n rfl hn
      have h1 : sysOut ⟨true, n, 0, [], new, 0⟩ (vs v) = (some .nomem, ⟨true, n, size, (vs v).take n, new, 0⟩) := by
        unfold sysOut
        simp only [hv]
        by_cases h0 : n = 0
        · subst h0
          simp; omega
        · have : min size n = n := by omega
          simp [this, h0]; omega
      simp only [doNumber, Option.isSome_some, Option.getD_some, h1]
      simp; omega
    · intro hn
      have h1 : sysOut ⟨old.isSome, old.getD 0, 0, [], new, 0⟩ (vs v) =
          (none, ⟨old.isSome, old.getD 0, size, readOut old (vs v), new, 0⟩) := by
        unfold sysOut readOut
        cases old with
        | none => simp [hv]
        | some n =>
          have := hn n rfl
          simp only [Option.isSome_some, Option.getD_some, hv]
          by_cases h0 : n = 0
          · have hz : size = 0 := by omega
            have : vs v = [] := List.length_eq_zero_iff.mp (by omega)
            simp [h0, hz, this]
          · have hm : min size n = size := by omega
            have ht : (vs v).take size = vs v := by rw [← hv, List.take_length]
            simp [h0, hm, ht]
      have h2 : ¬ (old.isSome = true ∧ size > old.getD 0) := by
        rintro ⟨a, b⟩
        cases old with
        | none => simp at a
        | some n => have := hn n rfl; simp at b; omega
      refine ⟨?_, ?_, ?_⟩
      · rintro rfl
        simp only [doNumber, h1, sysIn]
        simp [h2]
      · rintro b rfl hb
        simp only [doNumber, h1, sysIn, Nat.sub_zero, if_pos hb]
        simp
      · rintro b rfl hb
        simp only [doNumber, h1, sysIn, Nat.sub_zero, if_neg (show ¬ b.length < size by omega)]
        simp [h2]

/-- The variable an entry writes. -/
def Handler.var : Handler → Option Nat
  | .number v _ | .opaque v _ | .string v _ | .msec v => some v
  | _ => Option.none

theorem sysOut_new (r : Req) (p : List UInt8) : (sysOut r p).2.new = r.new := rfl

theorem doNumber_vars (vs : Vars) (w size : Nat) (r : Req) :
    (doNumber vs w size r).2.1 = vs ∨ (r.new.isSome ∧ ∃ b, (doNumber vs w size r).2.1 = set vs w b) := by
  unfold doNumber
  split
  · exact .inl rfl
  · rename_i r' hr'
    have hsame : r'.new = r.new := by have := sysOut_new r (vs w); rw [hr'] at this; exact this
    split
    · rename_i e b r'' hin
      refine .inr ⟨?_, b, rfl⟩
      rw [← hsame]
      unfold sysIn at hin
      split at hin
      · simp at hin
      · rename_i hb; rw [hb]; rfl
    · exact .inl rfl

theorem sysIn_new {r r' : Req} {l : Nat} {e : Option Err} {b : List UInt8} (h : sysIn r l = (e, some b, r')) :
    r.new.isSome := by
  unfold sysIn at h
  split at h
  · simp at h
  · rename_i hb; rw [hb]; rfl

theorem doString_vars (vs : Vars) (w max : Nat) (r : Req) :
    (doString vs w max r).2.1 = vs ∨ (r.new.isSome ∧ ∃ b, (doString vs w max r).2.1 = set vs w b) := by
  unfold doString
  generalize cstr (vs w) = out
  split
  · exact .inl rfl
  · rename_i r' hr'
    have hsame : r'.new = r.new := by have := sysOut_new r out; rw [hr'] at this; exact this
    split
    · exact .inl rfl
    · rename_i b hb
      split
      · exact .inl rfl
      · split
        · exact .inr ⟨by rw [← hsame, hb]; rfl, _, rfl⟩
        · exact .inl rfl

theorem doMsec_vars (vs : Vars) (w : Nat) (r : Req) :
    (doMsec vs w r).2.1 = vs ∨ (r.new.isSome ∧ ∃ b, (doMsec vs w r).2.1 = set vs w b) := by
  unfold doMsec
  generalize ofInt (toMsec (toInt (vs w))) = out
  split
  · exact .inl rfl
  · rename_i r' hr'
    have hsame : r'.new = r.new := by have := sysOut_new r out; rw [hr'] at this; exact this
    split
    · exact .inl rfl
    · exact .inl rfl
    · rename_i b r'' hin
      generalize toTicks (toInt b) = tt
      split
      · exact .inl rfl
      · exact .inr ⟨by rw [← hsame]; exact sysIn_new hin, _, rfl⟩

theorem handle_vars (vs : Vars) (h : Handler) (r : Req) :
    (handle vs h r).2.1 = vs ∨ (r.new.isSome ∧ ∃ w b, h.var = some w ∧ (handle vs h r).2.1 = set vs w b) := by
  cases h with
  | none => exact .inl rfl
  | proc => exact .inl rfl
  | name2oid => exact .inl rfl
  | const b => left; simp only [handle, doConst]; split <;> rfl
  | number w size =>
    rcases doNumber_vars vs w size r with h | ⟨h, b, h'⟩
    · exact .inl h
    · exact .inr ⟨h, w, b, rfl, h'⟩
  | «opaque» w size =>
    rcases doNumber_vars vs w size r with h | ⟨h, b, h'⟩
    · exact .inl h
    · exact .inr ⟨h, w, b, rfl, h'⟩
  | string w max =>
    rcases doString_vars vs w max r with h | ⟨h, b, h'⟩
    · exact .inl h
    · exact .inr ⟨h, w, b, rfl, h'⟩
  | msec w =>
    rcases doMsec_vars vs w r with h | ⟨h, b, h'⟩
    · exact .inl h
    · exact .inr ⟨h, w, b, rfl, h'⟩

/-- A call changes at most the variable of an entry that is writable, and only if a new value is given. -/
theorem access_writes (vs : Vars) (o : Oid) (old : Option Nat) (new : Option (List UInt8)) {v : Nat}
    (h : (access vs o old new).1 v ≠ vs v) : o.write = true ∧ o.handler.var = some v ∧ new.isSome := by
  have key : ∀ r : Req, (handle vs o.handler r).2.1 v ≠ vs v → o.handler.var = some v ∧ r.new.isSome := by
    intro r h
    rcases handle_vars vs o.handler r with h' | ⟨h1, w, b, h2, h3⟩
    · rw [h'] at h; exact absurd rfl h
    · rw [h3] at h
      refine ⟨?_, h1⟩
      rw [h2]
      apply Classical.byContradiction
      intro hne
      simp only [set] at h
      exact h (by rw [if_neg (fun e => hne (by rw [e]))])
  unfold access at h
  simp only at h
  split at h
  · simp at h
  · split at h
    · simp at h
    · rename_i hw
      obtain ⟨a, b⟩ := key _ h
      simp only at b
      refine ⟨?_, a, b⟩
      cases hwr : o.write with
      | true => rfl
      | false => exact absurd ⟨b, hwr⟩ hw

/-- What can happen: the tree is extended, or a call is made. -/
inductive Ev where
  | op (op : Op)
  | call (name : List Char) (old : Option Nat) (new : Option (List UInt8))

/-- One event. -/
def step (s : Tree × Vars) : Ev → Tree × Vars
  | .op op => (apply s.1 op, s.2)
  | .call name old new => (s.1, (sysctl s.1 s.2 name old new).1)

/-- The entry a registration is about. -/
def Op.oid : Op → Oid
  | .register _ o | .add _ o => o

theorem findOid_mem {t : Tree} {l k : Nat} {ns : List Int} {o : Oid} {r : List Int} (h : findOid t l k ns = .ok (o, r)) :
    ∃ i, o ∈ t.lists i := by
  induction k generalizing l ns with
  | zero => simp [findOid] at h
  | succ k ih =>
    cases ns with
    | nil => simp [findOid] at h
    | cons n ns =>
      simp only [findOid] at h
      split at h
      · simp at h
      · rename_i p hp
        split at h
        · split at h
          · simp at h; obtain ⟨rfl, _⟩ := h; exact ⟨l, (findNumber_some hp).1⟩
          · exact ih h
        · split at h
          · simp at h; obtain ⟨rfl, _⟩ := h; exact ⟨l, (findNumber_some hp).1⟩
          · simp at h

theorem sysctl_writes {t : Tree} {vs : Vars} {name : List Char} {old : Option Nat} {new : Option (List UInt8)} {v : Nat}
    (h : (sysctl t vs name old new).1 v ≠ vs v) : ∃ i, ∃ o ∈ t.lists i, o.write = true ∧ o.handler.var = some v := by
  cases hn : name2oid t name with
  | error e => unfold sysctl at h; rw [hn] at h; simp at h
  | ok ns =>
    cases hf : findOid t 0 maxName ns with
    | error e => unfold sysctl at h; rw [hn] at h; simp only [root, hf] at h; simp at h
    | ok x =>
      obtain ⟨o, r⟩ := x
      rw [sysctl_access hn hf] at h
      obtain ⟨i, hi⟩ := findOid_mem hf
      obtain ⟨a, b, _⟩ := access_writes vs o old new h
      exact ⟨i, o, hi, a, b⟩

/-- **C216**: a variable all of whose entries are read-only never changes, whatever calls are made and whatever else is
registered. -/
theorem read_only_kept (n : Nat) (vs : Vars) (v : Nat) (es : List Ev)
    (h : ∀ op, Ev.op op ∈ es → op.oid.handler.var = some v → op.oid.write = false) :
    (es.foldl step (Tree.init n, vs)).2 v = vs v := by
  have key : ∀ (es : List Ev) (s : Tree × Vars), (∀ i, ∀ o ∈ s.1.lists i, o.handler.var = some v → o.write = false) →
      (∀ op, Ev.op op ∈ es → op.oid.handler.var = some v → op.oid.write = false) → (es.foldl step s).2 v = s.2 v := by
    intro es
    induction es with
    | nil => intro s _ _; rfl
    | cons e es ih =>
      intro s hs hes
      simp only [List.foldl_cons]
      have hes' : ∀ op, Ev.op op ∈ es → op.oid.handler.var = some v → op.oid.write = false :=
        fun op hop => hes op (by simp [hop])
      cases e with
      | call name old new =>
        rw [ih (step s (.call name old new)) hs hes']
        apply Classical.byContradiction
        intro hne
        obtain ⟨i, o, ho, hw, hv⟩ := sysctl_writes hne
        rw [hs i o ho hv] at hw; simp at hw
      | op op =>
        refine ih _ ?_ hes'
        have hop := hes op (by simp)
        have hreg : ∀ (t : Tree) (l : Nat) (o : Oid), (∀ i, ∀ o ∈ t.lists i, o.handler.var = some v → o.write = false) →
            (o.handler.var = some v → o.write = false) →
            ∀ i, ∀ p ∈ (register t l o).lists i, p.handler.var = some v → p.write = false := by
          intro t l o ht ho i p hp
          cases hf : findName o.name (t.lists l) with
          | some q => rw [register_old hf] at hp; exact ht i p hp
          | none =>
            obtain ⟨h1, h2⟩ := register_lists hf
            by_cases hi : i = l
            · subst hi
              rw [h2] at hp
              rcases mem_insertOid.mp hp with rfl | hp
              · split <;> exact ho
              · exact ht i p hp
            · rw [h1 i hi] at hp; exact ht i p hp
        simp only [step]
        cases op with
        | register l o => exact hreg _ _ _ hs hop
        | add l o =>
          simp only [apply]
          rcases add_cases s.1 l o with ⟨p, _, h2⟩ | ⟨_, h2⟩
          · rw [h2]; exact hs
          · rw [h2]
            refine hreg { s.1 with used := if o.node then s.1.used + 1 else s.1.used } l _ hs ?_
            cases o.node <;> exact hop
  exact key es (Tree.init n, vs) (fun i o ho => by simp [Tree.init] at ho) h

end Verif.Sysctl
