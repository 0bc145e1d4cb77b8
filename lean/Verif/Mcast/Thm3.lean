import Verif.Mcast.Thm2

/-!
# Group records live as long as they are referred to; the lock
-/

namespace Verif.Mcast

/-- A group record as far as references go. -/
structure P where
  ifp : Nat
  grp : Nat
  ref : Nat
  held : Nat
  deriving DecidableEq

def proj (g : Inm) : P := ⟨g.ifp, g.grp, g.ref, g.held⟩

def At (k g : Nat) (p : P) : Prop := p.ifp = k ∧ p.grp = g

instance (k g : Nat) (p : P) : Decidable (At k g p) := by unfold At; infer_instance

/-- Every record has as many references as it should: `c` of them from memberships, the others from
IGMP. -/
structure RInv (c : Nat → Nat → Nat) (ps : List P) : Prop where
  uniq : (ps.map (fun p => (p.ifp, p.grp))).Nodup
  ref : ∀ p ∈ ps, p.ref = p.held + c p.ifp p.grp ∧ p.ref ≠ 0
  ex : ∀ k g, c k g ≠ 0 → ∃ p ∈ ps, At k g p

def up (c : Nat → Nat → Nat) (k g : Nat) : Nat → Nat → Nat := fun x y => if x = k ∧ y = g then c x y + 1 else c x y

def down (c : Nat → Nat → Nat) (k g : Nat) : Nat → Nat → Nat := fun x y => if x = k ∧ y = g then c x y - 1 else c x y

def getP (ps : List P) (k g : Nat) : List P :=
  if ps.any (fun p => At k g p) then ps.map (fun p => if At k g p then { p with ref := p.ref + 1 } else p) else ⟨k, g, 1, 0⟩ :: ps

def relP (ps : List P) (k g : Nat) : List P :=
  (ps.map (fun p => if At k g p then { p with ref := p.ref - 1 } else p)).filter (fun p => p.ref ≠ 0)

theorem any_proj (gs : List Inm) (k g : Nat) : gs.any (fun r => r.ifp = k ∧ r.grp = g) = (gs.map proj).any (fun p => At k g p) := by
  rw [List.any_map]; rfl

theorem getMulti_proj (gs : List Inm) (k g : Nat) : (getMulti gs k g).map proj = getP (gs.map proj) k g := by
  unfold getMulti getP
  rw [any_proj]
  by_cases h : (gs.map proj).any (fun p => At k g p) = true
  · rw [if_pos h, if_pos h, List.map_map, List.map_map]
    apply List.map_congr_left
    intro r _
    show proj (if _ then _ else _) = if At k g (proj r) then _ else _
    by_cases hr : r.ifp = k ∧ r.grp = g
    · rw [if_pos hr, if_pos (show At k g (proj r) from hr)]; rfl
    · rw [if_neg hr, if_neg (show ¬ At k g (proj r) from hr)]
  · rw [if_neg h, if_neg h]; rfl

theorem release_proj (gs : List Inm) (k g : Nat) : (release gs k g).map proj = relP (gs.map proj) k g := by
  unfold release relP
  rw [show (fun g : Inm => decide (g.ref ≠ 0)) = (fun p : P => decide (p.ref ≠ 0)) ∘ proj from rfl, ← List.filter_map, List.map_map, List.map_map]
  congr 1
  apply List.map_congr_left
  intro r _
  show proj (if _ then _ else _) = if At k g (proj r) then _ else _
  by_cases hr : r.ifp = k ∧ r.grp = g
  · rw [if_pos hr, if_pos (show At k g (proj r) from hr)]; rfl
  · rw [if_neg hr, if_neg (show ¬ At k g (proj r) from hr)]

theorem mergeCounts_proj (g : Inm) (f : Filt) : proj (mergeCounts g f) = proj g := by
  unfold mergeCounts
  repeat' (first | rfl | split | dsimp only)

theorem inmMerge_proj {maxg : Nat} {nm : Nat → Bool} {g g' : Inm} {f : Filt} (h : inmMerge maxg nm g f = some g') : proj g' = proj g := by
  unfold inmMerge at h
  split at h
  · cases h
  · rename_i ns _
    dsimp only at h
    injection h with h
    have := mergeCounts_proj { g with srcs := ns } f
    rw [← h]
    split
    · exact this
    · exact this

theorem key_inj {ps : List P} (h : (ps.map (fun p => (p.ifp, p.grp))).Nodup) {p q : P} (hp : p ∈ ps) (hq : q ∈ ps) {k g : Nat} (h1 : At k g p) (h2 : At k g q) : p = q := by
  induction ps with
  | nil => cases hp
  | cons x l ih =>
    rw [List.map_cons, List.nodup_cons] at h
    have e : (p.ifp, p.grp) = (q.ifp, q.grp) := by rw [h1.1, h1.2, h2.1, h2.2]
    rcases List.mem_cons.mp hp with hp | hp <;> rcases List.mem_cons.mp hq with hq | hq
    · rw [hp, hq]
    · exact absurd (List.mem_map.mpr ⟨q, hq, by rw [← e, hp]⟩) h.1
    · exact absurd (List.mem_map.mpr ⟨p, hp, by rw [e, hq]⟩) h.1
    · exact ih h.2 hp hq

theorem mergeAt_proj {w : St} {e : Env} {k g : Nat} {f : Filt} {gs : List Inm} (hu : ((w.grps.map proj).map (fun p => (p.ifp, p.grp))).Nodup)
    (h : mergeAt w e k g f = some gs) : gs.map proj = w.grps.map proj := by
  unfold mergeAt at h
  split at h
  · cases h
  · rename_i r hr
    split at h
    · cases h
    · rename_i r' hr'
      injection h with h
      rw [← h, List.map_map]
      apply List.map_congr_left
      intro x hx
      show proj (if _ then _ else _) = _
      by_cases hk : x.ifp = k ∧ x.grp = g
      · rw [if_pos hk, inmMerge_proj hr']
        have h1 := List.mem_of_find?_eq_some hr
        have h2 := List.find?_some hr
        simp only [decide_eq_true_eq] at h2
        exact key_inj hu (List.mem_map_of_mem h1) (List.mem_map_of_mem hx) (k := k) (g := g) h2 hk
      · rw [if_neg hk]

theorem rinv_get {c : Nat → Nat → Nat} {ps : List P} (h : RInv c ps) (k g : Nat) : RInv (up c k g) (getP ps k g) := by
  unfold getP
  by_cases ha : ps.any (fun p => decide (At k g p)) = true
  · rw [if_pos ha]
    rw [List.any_eq_true] at ha
    obtain ⟨q, hq, hqa⟩ := ha
    have hqa : At k g q := by simpa using hqa
    have hk : ∀ p : P, (if At k g p then { p with ref := p.ref + 1 } else p).ifp = p.ifp ∧ (if At k g p then { p with ref := p.ref + 1 } else p).grp = p.grp := by
      intro p; split <;> exact ⟨rfl, rfl⟩
    refine ⟨?_, ?_, ?_⟩
    · rw [List.map_map]
      have : ((fun p : P => (p.ifp, p.grp)) ∘ fun p => if At k g p then { p with ref := p.ref + 1 } else p) = fun p : P => (p.ifp, p.grp) := by
        funext p
        show ((if At k g p then { p with ref := p.ref + 1 } else p).ifp, _) = _
        rw [(hk p).1, (hk p).2]
      rw [this]; exact h.uniq
    · intro p hp
      obtain ⟨x, hx, rfl⟩ := List.mem_map.mp hp
      obtain ⟨h1, h2⟩ := h.ref x hx
      by_cases hk : At k g x
      · rw [if_pos hk]
        unfold up
        dsimp only
        rw [if_pos (show x.ifp = k ∧ x.grp = g from hk)]
        omega
      · rw [if_neg hk]
        unfold up
        rw [if_neg (show ¬ (x.ifp = k ∧ x.grp = g) from hk)]
        exact ⟨h1, h2⟩
    · intro x y hc
      have hmem : ∀ p ∈ ps, At x y p → ∃ q ∈ ps.map (fun p => if At k g p then { p with ref := p.ref + 1 } else p), At x y q := by
        intro p hp hpa
        refine ⟨_, List.mem_map_of_mem hp, ?_⟩
        exact ⟨(hk p).1.trans hpa.1, (hk p).2.trans hpa.2⟩
      by_cases hxy : x = k ∧ y = g
      · rw [hxy.1, hxy.2] at hmem ⊢
        exact hmem q hq hqa
      · unfold up at hc
        rw [if_neg hxy] at hc
        obtain ⟨p, hp, hpa⟩ := h.ex x y hc
        exact hmem p hp hpa
  · rw [if_neg ha]
    have ha' : ∀ p ∈ ps, ¬ At k g p := by
      intro p hp hpa
      exact ha (List.any_eq_true.mpr ⟨p, hp, by simpa using hpa⟩)
    have hc0 : c k g = 0 := by
      apply Classical.byContradiction
      intro hne
      obtain ⟨p, hp, hpa⟩ := h.ex k g hne
      exact ha' p hp hpa
    refine ⟨?_, ?_, ?_⟩
    · rw [List.map_cons, List.nodup_cons]
      refine ⟨?_, h.uniq⟩
      intro hm
      obtain ⟨p, hp, he⟩ := List.mem_map.mp hm
      simp only [Prod.mk.injEq] at he
      exact ha' p hp he
    · intro p hp
      rcases List.mem_cons.mp hp with hp | hp
      · subst hp
        unfold up
        dsimp only
        rw [if_pos ⟨rfl, rfl⟩, hc0]
        omega
      · unfold up
        rw [if_neg (show ¬ (p.ifp = k ∧ p.grp = g) from ha' p hp)]
        exact h.ref p hp
    · intro x y hc
      by_cases hxy : x = k ∧ y = g
      · exact ⟨_, List.mem_cons_self .., hxy.1.symm, hxy.2.symm⟩
      · unfold up at hc
        rw [if_neg hxy] at hc
        obtain ⟨p, hp, hpa⟩ := h.ex x y hc
        exact ⟨p, List.mem_cons_of_mem _ hp, hpa⟩

theorem rinv_map_filter {c c' : Nat → Nat → Nat} {ps : List P} (h : RInv c ps) (F : P → P) (hF : ∀ p, (F p).ifp = p.ifp ∧ (F p).grp = p.grp)
    (hr : ∀ p ∈ ps, (F p).ref = (F p).held + c' p.ifp p.grp) (hc : ∀ k g, c' k g ≠ 0 → c k g ≠ 0) : RInv c' ((ps.map F).filter (fun p => p.ref ≠ 0)) := by
  refine ⟨?_, ?_, ?_⟩
  · refine (List.Sublist.map _ List.filter_sublist).nodup ?_
    rw [List.map_map]
    have : ((fun p : P => (p.ifp, p.grp)) ∘ F) = fun p : P => (p.ifp, p.grp) := by
      funext p
      show ((F p).ifp, (F p).grp) = _
      rw [(hF p).1, (hF p).2]
    rw [this]; exact h.uniq
  · intro p hp
    obtain ⟨hp, hp0⟩ := List.mem_filter.mp hp
    obtain ⟨x, hx, rfl⟩ := List.mem_map.mp hp
    rw [(hF x).1, (hF x).2]
    exact ⟨hr x hx, by simpa using hp0⟩
  · intro k g hne
    obtain ⟨p, hp, hpa⟩ := h.ex k g (hc k g hne)
    refine ⟨F p, List.mem_filter.mpr ⟨List.mem_map_of_mem hp, ?_⟩, ?_⟩
    · have := hr p hp
      rw [hpa.1, hpa.2] at this
      simp only [decide_eq_true_eq]
      omega
    · unfold At
      rw [(hF p).1, (hF p).2]
      exact hpa

theorem rinv_rel {c : Nat → Nat → Nat} {ps : List P} (h : RInv c ps) {k g : Nat} (hc : c k g ≠ 0) : RInv (down c k g) (relP ps k g) := by
  unfold relP
  refine rinv_map_filter h _ ?_ ?_ ?_
  · intro p; split <;> exact ⟨rfl, rfl⟩
  · intro p hp
    obtain ⟨h1, h2⟩ := h.ref p hp
    unfold down
    by_cases hk : At k g p
    · rw [if_pos hk, if_pos (show p.ifp = k ∧ p.grp = g from hk)]
      dsimp only
      rw [hk.1, hk.2] at h1 ⊢
      omega
    · rw [if_neg hk, if_neg (show ¬ (p.ifp = k ∧ p.grp = g) from hk)]
      exact h1
  · intro x y hne
    unfold down at hne
    by_cases hxy : x = k ∧ y = g
    · rw [hxy.1, hxy.2]; exact hc
    · rw [if_neg hxy] at hne; exact hne

def igmpP (p : P) : Igmp → P
  | .hold => { p with ref := p.ref + 1, held := p.held + 1 }
  | .drop => if p.held = 0 then p else { p with ref := p.ref - 1, held := p.held - 1 }
  | _ => p

theorem igmp_proj (w : St) (k g : Nat) (o : Igmp) :
    (igmp w k g o).grps.map proj = ((w.grps.map proj).map (fun p => if At k g p then igmpP p o else p)).filter (fun p => p.ref ≠ 0) := by
  unfold igmp
  dsimp only
  rw [show (fun g : Inm => decide (g.ref ≠ 0)) = (fun p : P => decide (p.ref ≠ 0)) ∘ proj from rfl, ← List.filter_map, List.map_map, List.map_map]
  congr 1
  apply List.map_congr_left
  intro r _
  show proj (if _ then _ else _) = if At k g (proj r) then _ else _
  by_cases hr : r.ifp = k ∧ r.grp = g
  · rw [if_pos hr, if_pos (show At k g (proj r) from hr)]
    cases o with
    | commit => rfl
    | hold => rfl
    | drop =>
      unfold igmpG igmpP
      dsimp only
      by_cases h0 : r.held = 0
      · rw [if_pos h0, if_pos (show (proj r).held = 0 from h0)]
      · rw [if_neg h0, if_neg (show ¬ (proj r).held = 0 from h0)]; rfl
    | record a =>
      show proj (if _ then _ else if _ then _ else _) = proj r
      repeat' (first | rfl | split)
    | clear => rfl
  · rw [if_neg hr, if_neg (show ¬ At k g (proj r) from hr)]

theorem rinv_igmp {c : Nat → Nat → Nat} {ps : List P} (h : RInv c ps) (k g : Nat) (o : Igmp) :
    RInv c ((ps.map (fun p => if At k g p then igmpP p o else p)).filter (fun p => p.ref ≠ 0)) := by
  refine rinv_map_filter h _ ?_ ?_ (fun _ _ h => h)
  · intro p
    split
    · cases o <;> (unfold igmpP; repeat' (first | exact ⟨rfl, rfl⟩ | split))
    · exact ⟨rfl, rfl⟩
  · intro p hp
    obtain ⟨h1, _⟩ := h.ref p hp
    split
    · cases o <;> unfold igmpP <;> dsimp only
      · exact h1
      · omega
      · by_cases h0 : p.held = 0
        · rw [if_pos h0]; exact h1
        · rw [if_neg h0]; dsimp only; omega
      · exact h1
      · exact h1
    · exact h1

/-! ## The references of the memberships -/

/-- How many memberships there are of a group on an interface. -/
def cnt (m : List Ent) (k g : Nat) : Nat := m.countP (fun x => x.ifp = k ∧ x.grp = g)

def plus (a b : Nat → Nat → Nat) : Nat → Nat → Nat := fun k g => a k g + b k g

/-- References to records: those of the memberships, of IGMP, and `lk` that nobody will give up. -/
structure Refs (lk : Nat → Nat → Nat) (w : St) : Prop where
  uniq : (w.mem.map key).Nodup
  refs : RInv (plus (cnt w.mem) lk) (w.grps.map proj)

theorem setFilt_key (m : List Ent) (x : Ent) (f : Filt) : (setFilt m x f).map key = m.map key := by
  unfold setFilt
  rw [List.map_map]
  apply List.map_congr_left
  intro y _
  show key (if _ then _ else _) = _
  split <;> rfl

theorem cnt_key (m : List Ent) (k g : Nat) : cnt m k g = (m.map key).countP (fun q => q.2.1 = k ∧ q.2.2 = g) := by
  rw [List.countP_map]; rfl

theorem setFilt_cnt (m : List Ent) (x : Ent) (f : Filt) : cnt (setFilt m x f) = cnt m := by
  funext k g
  rw [cnt_key, cnt_key, setFilt_key]

theorem refs_same {lk : Nat → Nat → Nat} {w w' : St} (h : Refs lk w) (hk : w'.mem.map key = w.mem.map key) (hp : w'.grps.map proj = w.grps.map proj) : Refs lk w' := by
  refine ⟨by rw [hk]; exact h.uniq, ?_⟩
  have : cnt w'.mem = cnt w.mem := by funext k g; rw [cnt_key, cnt_key, hk]
  rw [this, hp]; exact h.refs

theorem cnt_append (m : List Ent) (x : Ent) : cnt (m ++ [x]) = up (cnt m) x.ifp x.grp := by
  funext k g
  unfold cnt up
  rw [List.countP_append, List.countP_singleton]
  by_cases h : x.ifp = k ∧ x.grp = g
  · rw [if_pos (by simpa using h), if_pos ⟨h.1.symm, h.2.symm⟩]
  · rw [if_neg (by simpa using h), if_neg (fun q => h ⟨q.1.symm, q.2.symm⟩)]; rfl

theorem cnt_drop {m : List Ent} (hu : (m.map key).Nodup) {x : Ent} (hx : x ∈ m) (k g : Nat) :
    cnt m k g = cnt (dropEnt m x) k g + if k = x.ifp ∧ g = x.grp then 1 else 0 := by
  induction m with
  | nil => cases hx
  | cons y l ih =>
    rw [List.map_cons, List.nodup_cons] at hu
    rcases List.mem_cons.mp hx with hxy | hxl
    · subst hxy
      have hd : dropEnt (x :: l) x = l := by
        unfold dropEnt
        rw [List.filter_cons_of_neg (by simp), filter_id_of]
        intro z hz
        simp only [decide_eq_true_eq]
        intro hc
        apply hu.1
        refine List.mem_map.mpr ⟨z, hz, ?_⟩
        unfold key
        rw [hc.1, hc.2.1, hc.2.2]
      rw [hd]
      unfold cnt
      rw [List.countP_cons]
      by_cases h : x.ifp = k ∧ x.grp = g
      · rw [if_pos (by simpa using h), if_pos ⟨h.1.symm, h.2.symm⟩]
      · rw [if_neg (by simpa using h), if_neg (fun q => h ⟨q.1.symm, q.2.symm⟩)]
    · have hne : ¬ (y.sock = x.sock ∧ y.ifp = x.ifp ∧ y.grp = x.grp) := by
        intro hc
        apply hu.1
        refine List.mem_map.mpr ⟨x, hxl, ?_⟩
        unfold key
        rw [hc.1, hc.2.1, hc.2.2]
      have hd : dropEnt (y :: l) x = y :: dropEnt l x := by
        unfold dropEnt
        rw [List.filter_cons_of_pos (p := fun z : Ent => decide ¬ (z.sock = x.sock ∧ z.ifp = x.ifp ∧ z.grp = x.grp)) (decide_eq_true hne)]
      rw [hd]
      have := ih hu.2 hxl
      unfold cnt at this ⊢
      rw [List.countP_cons, List.countP_cons, this]
      omega

theorem plus_up (a b : Nat → Nat → Nat) (k g : Nat) : plus (up a k g) b = up (plus a b) k g := by
  funext x y
  unfold plus up
  dsimp only
  split <;> omega

theorem down_up (a : Nat → Nat → Nat) (k g : Nat) : down (up a k g) k g = a := by
  funext x y
  unfold down up
  split <;> rfl

theorem refs_drop {lk : Nat → Nat → Nat} {w : St} (h : Refs lk w) {x : Ent} (hx : x ∈ w.mem) {gs : List Inm}
    (hp : gs.map proj = w.grps.map proj) : Refs lk { w with grps := release gs x.ifp x.grp, mem := dropEnt w.mem x } := by
  refine ⟨(List.Sublist.map _ List.filter_sublist).nodup h.uniq, ?_⟩
  show RInv _ ((release gs x.ifp x.grp).map proj)
  rw [release_proj, hp]
  have hc := cnt_drop h.uniq hx
  have h1 : plus (cnt w.mem) lk x.ifp x.grp ≠ 0 := by
    unfold plus
    rw [hc, if_pos ⟨rfl, rfl⟩]
    omega
  have := rinv_rel h.refs h1
  have he : down (plus (cnt w.mem) lk) x.ifp x.grp = plus (cnt (dropEnt w.mem x)) lk := by
    funext k g
    unfold down plus
    rw [hc]
    by_cases hkg : k = x.ifp ∧ g = x.grp
    · rw [if_pos hkg, if_pos hkg]; omega
    · rw [if_neg hkg, if_neg hkg]; omega
  rw [he] at this
  exact this

/-- Every call but close keeps the account. -/
theorem step_refs {lk : Nat → Nat → Nat} {w : St} (h : Refs lk w) (e : Env) (o : Op) (ho : ∀ i, o ≠ .close i) : Refs lk (step w e o).1 := by
  have hu := h.refs.uniq
  cases o with
  | close i => exact absurd rfl (ho i)
  | igmp k g op =>
    unfold step
    dsimp only
    split
    · exact h
    · refine ⟨h.uniq, ?_⟩
      show RInv (plus (cnt w.mem) lk) _
      rw [igmp_proj]
      exact rinv_igmp h.refs k g op
  | join i ifp g src =>
    unfold step join
    dsimp only
    cases ifp with
    | none => exact h
    | some k =>
      dsimp only
      match hm : matchGroup w i (some k) g with
      | some x =>
        cases src with
        | none => exact h
        | some a =>
          dsimp only
          split
          · exact h
          · split
            · exact h
            · split
              · exact h
              · split
                · exact h
                · match hme : mergeAt w e k g (imfGraft x.f .incl a) with
                  | none => exact h
                  | some gs =>
                    dsimp only
                    have := mergeAt_proj hu hme
                    split
                    · exact refs_same h (setFilt_key _ _ _) this
                    · exact refs_same h (setFilt_key _ _ _) this
      | none =>
        dsimp only
        split
        · exact h
        · split
          · exact h
          · split
            · exact h
            · match hme : mergeAt { w with grps := getMulti w.grps k g } e k g (newFilt src) with
              | none => exact h
              | some gs =>
                dsimp only
                have hg : RInv (up (plus (cnt w.mem) lk) k g) ((getMulti w.grps k g).map proj) := by
                  rw [getMulti_proj]; exact rinv_get h.refs k g
                have hp := mergeAt_proj (w := { w with grps := getMulti w.grps k g }) hg.uniq hme
                have hp : gs.map proj = (getMulti w.grps k g).map proj := hp
                split
                · refine ⟨h.uniq, ?_⟩
                  show RInv (plus (cnt w.mem) lk) ((release gs k g).map proj)
                  rw [release_proj, hp]
                  have := rinv_rel hg (k := k) (g := g) (by unfold up; rw [if_pos ⟨rfl, rfl⟩]; omega)
                  rw [down_up] at this
                  exact this
                · refine ⟨?_, ?_⟩
                  · show ((w.mem ++ [_]).map key).Nodup
                    rw [List.map_append, List.nodup_append]
                    refine ⟨h.uniq, by simp, fun a ha b hb => ?_⟩
                    rw [List.map_singleton, List.mem_singleton] at hb
                    obtain ⟨y, hy, rfl⟩ := List.mem_map.mp ha
                    subst hb
                    intro he
                    unfold matchGroup at hm
                    rw [List.find?_eq_none] at hm
                    have := hm y hy
                    simp only [key, Prod.mk.injEq] at he
                    simp [he.1, he.2.1, he.2.2] at this
                  · show RInv (plus (cnt (w.mem ++ [_])) lk) (gs.map proj)
                    rw [cnt_append, plus_up, hp]
                    exact hg
  | leave i ifp g src =>
    unfold step leave
    dsimp only
    match hm : matchGroup w i ifp g with
    | none => exact h
    | some x =>
      obtain ⟨hx, _, _, hxg⟩ := match_mem hm
      cases src with
      | none =>
        dsimp only
        split
        · exact h
        · match hme : mergeAt w e x.ifp g (imfLeave x.f) with
          | none => exact h
          | some gs =>
            dsimp only
            have := refs_drop h hx (mergeAt_proj hu hme)
            rw [hxg] at this
            exact this
      | some a =>
        dsimp only
        split
        · exact h
        · split
          · exact h
          · split
            · exact h
            · match hme : mergeAt w e x.ifp g (imfPrune x.f a) with
              | none => exact h
              | some gs =>
                dsimp only
                have := mergeAt_proj hu hme
                split
                · exact refs_same h (setFilt_key _ _ _) this
                · exact refs_same h (setFilt_key _ _ _) this
  | block i ifp g a b =>
    unfold step block
    dsimp only
    match hm : matchGroup w i ifp g with
    | none => exact h
    | some x =>
      dsimp only
      split
      · exact h
      · split
        · exact h
        · split
          · exact refs_same h (setFilt_key _ _ _) rfl
          · split
            · exact h
            · match hme : mergeAt w e x.ifp g (if b = true then imfGraft x.f .excl a else imfPrune x.f a) with
              | none => exact h
              | some gs =>
                dsimp only
                have := mergeAt_proj hu hme
                split
                · exact refs_same h (setFilt_key _ _ _) this
                · exact refs_same h (setFilt_key _ _ _) this
  | set i ifp g m srcs =>
    unfold step setSources
    dsimp only
    split
    · exact h
    · cases ifp with
      | none => exact h
      | some k =>
        dsimp only
        match hm : matchGroup w i (some k) g with
        | none => exact h
        | some x =>
          dsimp only
          generalize (if srcs = [] then _ else _ : Filt × Err) = p
          split
          · exact refs_same h (setFilt_key _ _ _) rfl
          · split
            · exact h
            · match hme : mergeAt w e k g p.1 with
              | none => exact h
              | some gs =>
                dsimp only
                have := mergeAt_proj hu hme
                split
                · exact refs_same h (setFilt_key _ _ _) this
                · exact refs_same h (setFilt_key _ _ _) this

/-- Closing a socket leaves the references of its memberships behind. -/
theorem close_refs {lk : Nat → Nat → Nat} {w : St} (h : Refs lk w) (i : Nat) :
    Refs (plus lk (cnt (w.mem.filter (fun x => ¬ x.sock ≠ i)))) (close w i) := by
  refine ⟨(List.Sublist.map _ List.filter_sublist).nodup h.uniq, ?_⟩
  show RInv _ (w.grps.map proj)
  have : plus (cnt (w.mem.filter (fun x => x.sock ≠ i))) (plus lk (cnt (w.mem.filter (fun x => ¬ x.sock ≠ i)))) = plus (cnt w.mem) lk := by
    funext k g
    unfold plus cnt
    generalize w.mem = l
    induction l with
    | nil => simp
    | cons y l ih =>
      by_cases hy : y.sock = i
      · rw [List.filter_cons_of_neg (by simp [hy]), List.filter_cons_of_pos (by simp [hy]), List.countP_cons, List.countP_cons]
        omega
      · rw [List.filter_cons_of_pos (by simp [hy]), List.filter_cons_of_neg (by simp [hy]), List.countP_cons, List.countP_cons]
        omega
  have hf : (close w i).mem = w.mem.filter (fun x => x.sock ≠ i) := rfl
  rw [hf, this]
  exact h.refs

theorem init_refs : Refs (fun _ _ => 0) init := by
  refine ⟨List.nodup_nil, List.nodup_nil, fun p hp => (by cases hp), fun k g h => absurd rfl h⟩

theorem run_refs : ∀ (h : List (Env × Op)) (w : St) (lk : Nat → Nat → Nat), Refs lk w → (∀ p ∈ h, ∀ i, p.2 ≠ .close i) → Refs lk (run w h) := by
  intro h
  induction h with
  | nil => intro w lk hr _; exact hr
  | cons p h ih =>
    intro w lk hr hn
    exact ih _ lk (step_refs hr p.1 p.2 (hn p (List.mem_cons_self ..))) (fun q hq => hn q (List.mem_cons_of_mem _ hq))

theorem run_refs_any : ∀ (h : List (Env × Op)) (w : St) (lk : Nat → Nat → Nat), Refs lk w → ∃ lk', Refs lk' (run w h) ∧ ∀ k g, lk k g ≤ lk' k g := by
  intro h
  induction h with
  | nil => intro w lk hr; exact ⟨lk, hr, fun _ _ => Nat.le_refl _⟩
  | cons p h ih =>
    intro w lk hr
    by_cases hc : ∃ i, p.2 = .close i
    · obtain ⟨i, hc⟩ := hc
      obtain ⟨lk', h1, h2⟩ := ih (step w p.1 p.2).1 _ (by rw [hc]; exact close_refs hr i)
      refine ⟨lk', h1, fun k g => Nat.le_trans ?_ (h2 k g)⟩
      exact Nat.le_add_right ..
    · obtain ⟨lk', h1, h2⟩ := ih (step w p.1 p.2).1 lk (step_refs hr p.1 p.2 (fun i hi => hc ⟨i, hi⟩))
      exact ⟨lk', h1, h2⟩

/-- The record of a group on an interface. -/
def record (w : St) (k g : Nat) : Option Inm := w.grps.find? (fun r => r.ifp = k ∧ r.grp = g)

theorem record_ex {w : St} {k g : Nat} : (∃ p ∈ w.grps.map proj, At k g p) ↔ ∃ r, record w k g = some r := by
  constructor
  · rintro ⟨p, hp, ha⟩
    obtain ⟨r, hr, rfl⟩ := List.mem_map.mp hp
    have : (w.grps.find? (fun r => r.ifp = k ∧ r.grp = g)).isSome := by
      rw [List.find?_isSome]
      exact ⟨r, hr, by simpa using (show r.ifp = k ∧ r.grp = g from ha)⟩
    exact Option.isSome_iff_exists.mp this
  · rintro ⟨r, hr⟩
    have h1 := List.mem_of_find?_eq_some hr
    have h2 := List.find?_some hr
    exact ⟨proj r, List.mem_map_of_mem h1, (of_decide_eq_true h2 : r.ifp = k ∧ r.grp = g)⟩

/-- **C151, in part.**  As long as no socket is closed, an interface has a record of a group exactly
while some socket is a member of the group there or IGMP holds it; memberships and holds are all
its references. -/
theorem record_lives_partial (h : List (Env × Op)) (hc : ∀ p ∈ h, ∀ i, p.2 ≠ .close i) (k g : Nat) :
    ((∃ x ∈ (run init h).mem, x.ifp = k ∧ x.grp = g) → ∃ r, record (run init h) k g = some r) ∧
    ∀ r, record (run init h) k g = some r →
      r.ref = r.held + (run init h).mem.countP (fun x => x.ifp = k ∧ x.grp = g) ∧ r.ref ≠ 0 := by
  have hr := run_refs h init _ init_refs hc
  constructor
  · rintro ⟨x, hx, hk⟩
    refine record_ex.mp (hr.refs.ex k g ?_)
    show cnt _ k g + 0 ≠ 0
    have : 0 < cnt (run init h).mem k g := List.countP_pos_iff.mpr ⟨x, hx, by simpa using hk⟩
    omega
  · intro r he
    have h1 := List.mem_of_find?_eq_some he
    have h2 := List.find?_some he
    simp only [decide_eq_true_eq] at h2
    have := hr.refs.ref (proj r) (List.mem_map_of_mem h1)
    show (proj r).ref = (proj r).held + cnt (run init h).mem k g ∧ (proj r).ref ≠ 0
    rw [show (proj r).ifp = k from h2.1, show (proj r).grp = g from h2.2] at this
    exact this

/-- Two sockets join the same group; the record has two references; when both have left it is gone. -/
example : (record (run init (ops [.join 1 (some 3) 900 none, .join 2 (some 3) 900 none])) 3 900).map (·.ref) = some 2 ∧
    record (run init (ops [.join 1 (some 3) 900 none, .join 2 (some 3) 900 none, .leave 1 none 900 none, .leave 2 none 900 none])) 3 900 = none := by
  decide +kernel

/-- **C151, violated.**  Once a socket is closed that was a member of a group, the interface has a
record of the group for ever, whatever else is called: the host stays in the group. -/
theorem close_leak_violated (h : List (Env × Op)) (e : Env) (i k g : Nat) (hm : ∃ x ∈ (run init h).mem, x.sock = i ∧ x.ifp = k ∧ x.grp = g)
    (h' : List (Env × Op)) : ∃ r, record (run init (h ++ (e, .close i) :: h')) k g = some r := by
  obtain ⟨lk, h1, _⟩ := run_refs_any h init _ init_refs
  have h2 := close_refs h1 i
  obtain ⟨lk', h3, h4⟩ := run_refs_any h' _ _ h2
  have hrun : ∀ (a b : List (Env × Op)) (w : St), run w (a ++ b) = run (run w a) b := by
    intro a
    induction a with
    | nil => intro b w; rfl
    | cons p a ih => intro b w; exact ih b _
  rw [hrun]
  show ∃ r, record (run (close (run init h) i) h') k g = some r
  refine record_ex.mp (h3.refs.ex k g ?_)
  have h5 := h4 k g
  obtain ⟨x, hx, hs, hk⟩ := hm
  have : 0 < cnt ((run init h).mem.filter (fun x => ¬ x.sock ≠ i)) k g :=
    List.countP_pos_iff.mpr ⟨x, List.mem_filter.mpr ⟨hx, by simp [hs]⟩, by simpa using hk⟩
  unfold plus at h5 ⊢
  omega

example : ∃ x ∈ (run init (ops [.join 1 (some 3) 900 none])).mem, x.sock = 1 ∧ x.ifp = 3 ∧ x.grp = 900 := by decide +kernel

/-! ## The lock -/

theorem step_lock {w : St} {e : Env} {o : Op} (he : e.igmpErr = false) (hl : w.lock = false) : (step w e o).1.lock = false ∧ (step w e o).2 ≠ .hang := by
  have hl' : ¬ w.lock = true := by rw [hl]; decide
  cases o with
  | join i ifp g src =>
    unfold step join
    simp only [he, hl, Bool.false_eq_true, if_false]
    repeat' (first | exact ⟨hl, (fun h => by cases h)⟩ | exact ⟨rfl, (fun h => by cases h)⟩ | split)
  | leave i ifp g src =>
    unfold step leave
    simp only [he, hl, Bool.false_eq_true, if_false]
    repeat' (first | exact ⟨hl, (fun h => by cases h)⟩ | exact ⟨rfl, (fun h => by cases h)⟩ | split)
  | block i ifp g a b =>
    unfold step block
    simp only [he, hl, Bool.false_eq_true, if_false]
    repeat' (first | exact ⟨hl, (fun h => by cases h)⟩ | exact ⟨rfl, (fun h => by cases h)⟩ | split)
  | set i ifp g m srcs =>
    unfold step setSources
    simp only [he, hl, Bool.false_eq_true, if_false]
    generalize (if srcs = [] then _ else _ : Filt × Err) = p
    repeat' (first | exact ⟨hl, (fun h => by cases h)⟩ | exact ⟨rfl, (fun h => by cases h)⟩ | split)
  | close i => exact ⟨hl, (fun h => by cases h)⟩
  | igmp k g op =>
    unfold step
    dsimp only
    rw [if_neg hl']
    exact ⟨hl, (fun h => by cases h)⟩

/-- **C152, in part.**  As long as IGMP reports no error no call waits for ever. -/
theorem lock_free_partial (h : List (Env × Op)) (hg : ∀ p ∈ h, p.1.igmpErr = false) : ∀ p ∈ log init h, p.2 ≠ .hang := by
  have : ∀ (h : List (Env × Op)) (w : St), w.lock = false → (∀ p ∈ h, p.1.igmpErr = false) → ∀ p ∈ log w h, p.2 ≠ .hang := by
    intro h
    induction h with
    | nil => intro w _ _ p hp; cases hp
    | cons q h ih =>
      intro w hl hn p hp
      have hs := step_lock (o := q.2) (hn q (List.mem_cons_self ..)) hl
      rcases List.mem_cons.mp hp with hp | hp
      · subst hp; exact hs.2
      · exact ih _ hs.1 (fun r hr => hn r (List.mem_cons_of_mem _ hr)) p hp
  exact this h init rfl hg

theorem step_locked {w : St} {e : Env} {o : Op} (hl : w.lock = true) : (step w e o).1.lock = true := by
  cases o with
  | join i ifp g src =>
    unfold step join
    simp only [hl, if_true]
    repeat' (first | exact hl | split)
  | leave i ifp g src =>
    unfold step leave
    simp only [hl, if_true]
    repeat' (first | exact hl | split)
  | block i ifp g a b =>
    unfold step block
    simp only [hl, if_true]
    repeat' (first | exact hl | rfl | split)
  | set i ifp g m srcs =>
    unfold step setSources
    simp only [hl, if_true]
    generalize (if srcs = [] then _ else _ : Filt × Err) = p
    repeat' (first | exact hl | rfl | split)
  | close i => exact hl
  | igmp k g op =>
    unfold step
    dsimp only
    rw [if_pos hl]
    exact hl

theorem run_locked : ∀ (h : List (Env × Op)) (w : St), w.lock = true → (run w h).lock = true := by
  intro h
  induction h with
  | nil => intro w hl; exact hl
  | cons p h ih => intro w hl; exact ih _ (step_locked hl)

theorem run_append : ∀ (a b : List (Env × Op)) (w : St), run w (a ++ b) = run (run w a) b := by
  intro a
  induction a with
  | nil => intro b w; rfl
  | cons p a ih => intro b w; exact ih b _

theorem join_igmp_lock {w : St} {e : Env} {i : Nat} {ifp : Option Nat} {g : Nat} {src : Option Nat} (hr : (join w e i ifp g src).2 = .ret .igmp) :
    (join w e i ifp g src).1.lock = true := by
  have hx : ∀ b : Bool, (if b = true then Err.eaddrinuse else Err.einval) ≠ .igmp := by intro b; cases b <;> decide
  revert hr
  unfold join
  dsimp only
  repeat' (first | (intro hr; cases hr; done) | (intro _; rfl) | split)
  all_goals (intro hr; injection hr with hr; cases hr)

/-- **C152, violated.**  Once a join has returned an error of IGMP (the report could not be queued),
whatever is called after it, every join of a group by a socket that is not a member, every leaving
of a group, and IGMP itself, waits for ever. -/
theorem lock_left_violated (h : List (Env × Op)) (e : Env) (i : Nat) (ifp : Option Nat) (g : Nat) (src : Option Nat)
    (hr : (step (run init h) e (.join i ifp g src)).2 = .ret .igmp) (h' : List (Env × Op)) :
    let w := run init (h ++ (e, .join i ifp g src) :: h')
    (∀ e' j k q a, e'.noMem = false → matchGroup w j (some k) q = none → w.mem.countP (fun x => x.sock = j) ≠ 4095 →
      (step w e' (.join j (some k) q a)).2 = .hang) ∧
    (∀ e' j k q x, matchGroup w j k q = some x → (step w e' (.leave j k q none)).2 = .hang) ∧
    (∀ e' k q op, (step w e' (.igmp k q op)).2 = .hang) := by
  intro w
  have hl : w.lock = true := by
    show (run init (h ++ (e, .join i ifp g src) :: h')).lock = true
    rw [run_append]
    exact run_locked h' _ (join_igmp_lock hr)
  refine ⟨?_, ?_, ?_⟩
  · intro e' j k q a hn hm hc
    unfold step join
    dsimp only
    rw [hm]
    dsimp only
    rw [if_neg hc, if_neg (by rw [hn]; simp), if_pos hl]
  · intro e' j k q x hm
    unfold step leave
    dsimp only
    rw [hm]
    dsimp only
    rw [if_pos hl]
  · intro e' k q op
    unfold step
    dsimp only
    rw [if_pos hl]

example : (step (run init []) { calm with igmpErr := true } (.join 1 (some 3) 900 none)).2 = .ret .igmp := by decide +kernel

/-! ## Limits -/

/-- **C150, violated.**  Four sockets, each with a filter of 128 sources, as many as are allowed; a
fifth names one more source: instead of an error, a pointer that was never set is followed. -/
theorem full_violated :
    let h := ops ((List.range 4).flatMap (fun i => [.join i (some 3) 900 none, .set i (some 3) 900 true ((List.range 128).map (fun a => some (128 * i + a)))]))
    (∀ p ∈ log init h, p.2 = .ret .ok) ∧ (step (run init h) calm (.join 5 (some 3) 900 (some 1000))).2 = .fault := by
  decide +kernel

end Verif.Mcast
