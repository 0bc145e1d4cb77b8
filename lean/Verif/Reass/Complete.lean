import Verif.Reass.Sound
/-!
# C20: reassembly completes
-/
namespace Verif.Reass

/-! ## Well-formed states and the view of one key -/

/-- Each chain has fragments, all of one key; no two chains of a bucket have the same key. -/
def ChainWF (c : Chain) : Prop := ∃ k, c.key? = some k ∧ ∀ f ∈ c.frags, f.key = k
def BucketWF (l : List Chain) : Prop := (∀ c ∈ l, ChainWF c) ∧ l.Pairwise (fun a b => a.key? ≠ b.key?)
def WF (s : St) : Prop := ∀ i, BucketWF (s.ipq i)

/-- There is no queue for `k`. -/
def NoQueue (s : St) (k : Key) : Prop := ∀ i, ∀ c ∈ s.ipq i, c.key? ≠ some k

theorem chainWF_of {c : Chain} {k : Key} (hne : c.frags ≠ []) (h : ∀ f ∈ c.frags, f.key = k) :
    ChainWF c ∧ c.key? = some k := by
  have : c.key? = some k := by
    unfold Chain.key?
    cases hfr : c.frags with
    | nil => exact absurd hfr hne
    | cons a l => simp [h a (by rw [hfr]; simp)]
  exact ⟨⟨k, this, h⟩, this⟩

theorem insert_key {c c' : Chain} {p : Frag} {t j : UInt8} (hc : ChainWF c) (hk : c.key? = some p.key)
    (h : insert c p t j = some c') : ChainWF c' ∧ c'.key? = some p.key := by
  obtain ⟨k, h1, h2⟩ := hc
  have : k = p.key := by rw [h1] at hk; simpa using hk
  subst this
  obtain ⟨a, b⟩ := insert_all (fun f => f.key = p.key) (fun f n hf _ _ => hf) h2 rfl h
  exact chainWF_of a b

theorem replace_keys {k : Key} {l : List Chain} (h : BucketWF l) :
    ∀ (o : Option Chain), (∀ x, o = some x → ChainWF x ∧ x.key? = some k) → BucketWF (replace k o l) := by
  intro o ho
  obtain ⟨h1, h2⟩ := h
  refine ⟨fun c hc => ?_, ?_⟩
  · rcases replace_mem hc with h | h
    · exact h1 c h
    · exact (ho c h).1
  · induction l with
    | nil => simp [replace]
    | cons a l ih =>
      rw [List.pairwise_cons] at h2
      unfold replace
      split
      · next hak =>
        cases o with
        | none => exact h2.2
        | some x =>
          refine List.pairwise_cons.2 ⟨fun b hb => ?_, h2.2⟩
          rw [(ho x rfl).2, ← hak]
          exact h2.1 b hb
      · next hak =>
        refine List.pairwise_cons.2 ⟨fun b hb => ?_, ih (fun c hc => h1 c (List.mem_cons_of_mem _ hc)) h2.2⟩
        rcases replace_mem hb with h | h
        · exact h2.1 b h
        · rw [(ho b h).2]; exact hak

theorem find_replace_none {k : Key} {l : List Chain} (h : BucketWF l) :
    findChain k (replace k none l) = none := by
  have h2 := h.2
  clear h
  induction l with
  | nil => rfl
  | cons a l ih =>
    rw [List.pairwise_cons] at h2
    unfold replace
    split
    · next hak =>
      simp only [findChain, List.find?_eq_none, decide_eq_true_eq]
      intro b hb hbk
      exact h2.1 b hb (hak.trans hbk.symm)
    · next hak =>
      have := ih h2.2
      unfold findChain at this ⊢
      rw [List.find?_cons_of_neg (by simpa using hak)]
      exact this

theorem find_replace_some {k : Key} {l : List Chain} {c x : Chain} (hf : findChain k l = some c)
    (hx : x.key? = some k) : findChain k (replace k (some x) l) = some x := by
  induction l with
  | nil => simp [findChain] at hf
  | cons a l ih =>
    unfold replace
    split
    · unfold findChain
      rw [List.find?_cons_of_pos (by simpa using hx)]
    · next hak =>
      unfold findChain at hf ih ⊢
      rw [List.find?_cons_of_neg (by simpa using hak)] at hf ⊢
      exact ih hf

theorem find_replace_other {k k' : Key} {l : List Chain} {o : Option Chain} (hkk : k' ≠ k)
    (ho : ∀ x, o = some x → x.key? = some k) : findChain k' (replace k o l) = findChain k' l := by
  induction l with
  | nil => rfl
  | cons a l ih =>
    unfold replace
    split
    · next hak =>
      have hn : ¬ a.key? = some k' := by rw [hak]; simpa using Ne.symm hkk
      cases o with
      | none =>
        unfold findChain
        rw [List.find?_cons_of_neg (by simpa using hn)]
      | some x =>
        have hx : ¬ x.key? = some k' := by rw [ho x rfl]; simpa using Ne.symm hkk
        unfold findChain
        show List.find? _ (x :: l) = _
        rw [List.find?_cons_of_neg (by simpa using hx), List.find?_cons_of_neg (by simpa using hn)]
    · unfold findChain at ih ⊢
      by_cases hb : a.key? = some k'
      · rw [List.find?_cons_of_pos (by simpa using hb), List.find?_cons_of_pos (by simpa using hb)]
      · rw [List.find?_cons_of_neg (by simpa using hb), List.find?_cons_of_neg (by simpa using hb), ih]

/-- The queue of key `k`. -/
def chainOf (s : St) (k : Key) : Option Chain := findChain k (s.ipq (hash k))

/-- What `reass` does to the queue of the packet's own key. -/
def localStep (oc : Option Chain) (p : Pkt) : Option Chain × Out :=
  match oc with
  | none => if malformed p then (none, .nothing)
      else (some ⟨[p.frag], 1, if p.ttl < 15 then 15 else p.ttl⟩, .nothing)
  | some c =>
    if malformed p then (some { c with nfrags := c.nfrags - 1 }, .nothing)
    else match insert c p.frag p.ttl p.junk with
      | none => (some (droppedDup c p.ttl), .nothing)
      | some c' => match check c' (20 + p.opts.length) with
        | .keep => (some c', .nothing)
        | .free => (none, .nothing)
        | .done d => (none, .pkt d)

theorem frag_key (p : Pkt) : p.frag.key = p.key := rfl

theorem new_chain_key (p : Pkt) (n t : UInt8) : ChainWF ⟨[p.frag], n, t⟩ ∧ (Chain.mk [p.frag] n t).key? = some p.key :=
  chainWF_of (by simp) (by intro f hf; simp only [List.mem_singleton] at hf; subst hf; rfl)

theorem chainWF_congr {c c' : Chain} (h : c'.frags = c.frags) : (ChainWF c' ↔ ChainWF c) ∧ c'.key? = c.key? := by
  unfold ChainWF Chain.key?
  rw [h]
  exact ⟨Iff.rfl, rfl⟩

theorem setBucket_same (s : St) (k : Key) (l : List Chain) (dn : Int) : (setBucket s k l dn).ipq (hash k) = l := by
  simp [setBucket]

theorem setBucket_wf {s : St} {k : Key} {l : List Chain} {dn : Int} (hs : WF s) (hl : BucketWF l) :
    WF (setBucket s k l dn) := by
  intro i
  unfold setBucket
  simp only
  split
  · exact hl
  · exact hs i

theorem chainOf_setBucket_other {s : St} {k k' : Key} {l : List Chain} {dn : Int}
    (h : hash k' = hash k → findChain k' l = findChain k' (s.ipq (hash k))) :
    chainOf (setBucket s k l dn) k' = chainOf s k' := by
  unfold chainOf setBucket
  simp only
  split
  · next e => rw [e]; exact h e
  · rfl

/-- `reass` as a local step on the queue of the packet's key. -/
theorem reass_local {s : St} (hs : WF s) {p : Pkt} (hn : s.nipq ≤ maxnipq) (hr : p.room = true) :
    WF (reass s p).1 ∧ chainOf (reass s p).1 p.key = (localStep (chainOf s p.key) p).1 ∧
    (reass s p).2 = (localStep (chainOf s p.key) p).2 ∧
    (∀ k', k' ≠ p.key → chainOf (reass s p).1 k' = chainOf s k') ∧ (reass s p).1.nipq ≤ s.nipq + 1 := by
  have h1 : ¬ s.nipq > maxnipq := by omega
  have other : ∀ {l : List Chain} {dn : Int}, (∀ k', k' ≠ p.key → findChain k' l = findChain k' (s.ipq (hash p.key))) →
      ∀ k', k' ≠ p.key → chainOf (setBucket s p.key l dn) k' = chainOf s k' :=
    fun h k' hk' => chainOf_setBucket_other (fun _ => h k' hk')
  unfold reass
  rw [if_neg h1, if_neg (by simp [hr])]
  unfold localStep
  simp only
  cases hf : findChain p.key (s.ipq (hash p.key)) with
  | none =>
    rw [show chainOf s p.key = none from hf]
    simp only
    by_cases hm : malformed p
    · rw [if_pos hm, if_pos hm]
      exact ⟨hs, hf, rfl, fun _ _ => rfl, by show s.nipq ≤ _; omega⟩
    · rw [if_neg hm, if_neg hm]
      obtain ⟨w, wk⟩ := new_chain_key p 1 (if p.ttl < 15 then 15 else p.ttl)
      refine ⟨setBucket_wf hs ?_, ?_, rfl, other ?_, by simp [setBucket]⟩
      · refine ⟨?_, ?_⟩
        · intro c hc
          rcases List.mem_cons.1 hc with rfl | hc
          · exact w
          · exact (hs _).1 c hc
        · refine List.pairwise_cons.2 ⟨?_, (hs _).2⟩
          intro b hb
          rw [wk]
          intro hbk
          unfold findChain at hf
          rw [List.find?_eq_none] at hf
          exact hf b hb (by simpa using hbk.symm)
      · unfold chainOf
        rw [setBucket_same]
        unfold findChain
        rw [List.find?_cons_of_pos (by simpa using wk)]
      · intro k' hk'
        unfold findChain
        rw [List.find?_cons_of_neg]
        rw [wk]; simpa using Ne.symm hk'
  | some c =>
    obtain ⟨hcm, hck⟩ := findChain_some hf
    have hcw := (hs _).1 c hcm
    rw [show chainOf s p.key = some c from hf]
    have repl : ∀ (o : Option Chain) (dn : Int) , (∀ x, o = some x → ChainWF x ∧ x.key? = some p.key) → dn ≤ 0 →
        WF (setBucket s p.key (replace p.key o (s.ipq (hash p.key))) dn) ∧
        chainOf (setBucket s p.key (replace p.key o (s.ipq (hash p.key))) dn) p.key = o ∧
        (∀ k', k' ≠ p.key → chainOf (setBucket s p.key (replace p.key o (s.ipq (hash p.key))) dn) k' = chainOf s k') ∧
        (setBucket s p.key (replace p.key o (s.ipq (hash p.key))) dn).nipq ≤ s.nipq + 1 := by
      intro o dn ho hdn
      refine ⟨setBucket_wf hs (replace_keys (hs _) o ho), ?_, other (fun k' hk' =>
        find_replace_other hk' (fun x hx => (ho x hx).2)), by simp [setBucket]; omega⟩
      unfold chainOf
      rw [setBucket_same]
      cases o with
      | none => exact find_replace_none (hs _)
      | some x => exact find_replace_some hf (ho x rfl).2
    simp only
    by_cases hm : malformed p
    · rw [if_pos hm, if_pos hm]
      obtain ⟨a, b, d, e⟩ := repl (some { c with nfrags := c.nfrags - 1 }) 0 (fun x hx => by
        cases hx
        exact ⟨(chainWF_congr (c := c) rfl).1.2 hcw, ((chainWF_congr (c := c) rfl).2).trans hck⟩) (by omega)
      exact ⟨a, b, rfl, d, e⟩
    · rw [if_neg hm, if_neg hm]
      cases hi : insert c p.frag p.ttl p.junk with
      | none =>
        obtain ⟨a, b, d, e⟩ := repl (some (droppedDup c p.ttl)) 0 (fun x hx => by
          cases hx
          exact ⟨(chainWF_congr (c := c) rfl).1.2 hcw, ((chainWF_congr (c := c) rfl).2).trans hck⟩) (by omega)
        exact ⟨a, b, rfl, d, e⟩
      | some c' =>
        obtain ⟨w, wk⟩ := insert_key hcw hck hi
        simp only
        cases hc : check c' (20 + p.opts.length) with
        | keep =>
          obtain ⟨a, b, d, e⟩ := repl (some c') 0 (fun x hx => by cases hx; exact ⟨w, wk⟩) (by omega)
          exact ⟨a, b, rfl, d, e⟩
        | free =>
          obtain ⟨a, b, d, e⟩ := repl none 0 (fun x hx => by cases hx) (by omega)
          exact ⟨a, b, rfl, d, e⟩
        | done dd =>
          obtain ⟨a, b, d, e⟩ := repl none (-1) (fun x hx => by cases hx) (by omega)
          exact ⟨a, b, rfl, d, e⟩

theorem reass_noop {s : St} {p : Pkt} (h : ¬ (s.nipq ≤ maxnipq ∧ p.room = true)) : (reass s p).1 = s ∧
    ∀ d, (reass s p).2 ≠ .pkt d := by
  unfold reass
  by_cases h1 : s.nipq > maxnipq
  · rw [if_pos h1]; simp
  · rw [if_neg h1]
    have : p.room ≠ true := fun hr => h ⟨by omega, hr⟩
    rw [if_pos (by simpa using this)]
    simp

theorem find_filterMap_age {k : Key} {l : List Chain} (h : BucketWF l) :
    findChain k (l.filterMap ageChain) = (findChain k l).bind ageChain := by
  have h2 := h.2
  clear h
  induction l with
  | nil => rfl
  | cons a l ih =>
    rw [List.pairwise_cons] at h2
    have ih := ih h2.2
    have hkey : ∀ x, ageChain a = some x → x.key? = a.key? := fun x hx => by
      unfold Chain.key?; rw [(ageChain_frags hx).1]
    rw [List.filterMap_cons]
    by_cases hak : a.key? = some k
    · have hrest : findChain k l = none := by
        simp only [findChain, List.find?_eq_none, decide_eq_true_eq]
        intro b hb hbk
        exact h2.1 b hb (hak.trans hbk.symm)
      rw [show findChain k (a :: l) = some a from List.find?_cons_of_pos (by simpa using hak)]
      cases ha : ageChain a with
      | none => simp only [ih, hrest, Option.bind_some, ha, Option.bind_none]
      | some x =>
        simp only [Option.bind_some, ha]
        exact List.find?_cons_of_pos (by simpa [hkey x ha] using hak)
    · rw [show findChain k (a :: l) = findChain k l from List.find?_cons_of_neg (by simpa using hak)]
      cases ha : ageChain a with
      | none => exact ih
      | some x =>
        simp only
        rw [show findChain k (x :: l.filterMap ageChain) = findChain k (l.filterMap ageChain) from
          List.find?_cons_of_neg (by simpa [hkey x ha] using hak)]
        exact ih

theorem tick_wf {s : St} (hs : WF s) : WF (tick s) ∧ ∀ k, chainOf (tick s) k = (chainOf s k).bind ageChain := by
  refine ⟨fun i => ⟨fun c hc => ?_, ?_⟩, fun k => find_filterMap_age (hs _)⟩
  · obtain ⟨c0, h0, h1⟩ := List.mem_filterMap.1 hc
    exact (chainWF_congr (ageChain_frags h1).1).1.2 ((hs i).1 c0 h0)
  · show ((s.ipq i).filterMap ageChain).Pairwise _
    rw [List.pairwise_filterMap]
    refine (hs i).2.imp ?_
    intro a b hab a' ha b' hb
    rw [(chainWF_congr (ageChain_frags ha).1).2, (chainWF_congr (ageChain_frags hb).1).2]
    exact hab

theorem run_wf : ∀ (ops : List Op) (s : St), WF s → WF (run s ops).1 := by
  intro ops
  induction ops with
  | nil => intro s h; exact h
  | cons o ops ih =>
    intro s h
    apply ih
    cases o with
    | tick => exact (tick_wf h).1
    | recv p =>
      by_cases hh : s.nipq ≤ maxnipq ∧ p.room = true
      · exact (reass_local h hh.1 hh.2).1
      · show WF (reass s p).1
        rw [(reass_noop hh).1]; exact h

theorem init_wf : WF init := fun _ => ⟨by simp [init], by simp [init]⟩

/-- Chains are only in the bucket of their key's hash. -/
def Placed (s : St) : Prop := ∀ i, ∀ c ∈ s.ipq i, ∀ k, c.key? = some k → hash k = i

theorem reass_placed {s : St} (hs : WF s) (hp : Placed s) (p : Pkt) : Placed (reass s p).1 := by
  by_cases hh : s.nipq ≤ maxnipq ∧ p.room = true
  · obtain ⟨w, _, _, _, _⟩ := reass_local hs hh.1 hh.2
    -- every chain of the new state is an old chain, or has the packet's key and is in its bucket
    intro i c hc k hk
    by_cases hi : i = hash p.key
    · by_cases hkp : k = p.key
      · rw [hkp, hi]
      · have hfind : chainOf (reass s p).1 k = chainOf s k := (reass_local hs hh.1 hh.2).2.2.2.1 k hkp
        -- c was in the bucket before
        have hold : ∀ c ∈ (reass s p).1.ipq (hash p.key), c.key? = some k → c ∈ s.ipq (hash p.key) := by
          intro c hc hck
          unfold reass at hc
          rw [if_neg (by omega), if_neg (by simp [hh.2])] at hc
          simp only at hc
          have hr : ∀ (o : Option Chain) (dn : Int), (∀ x, o = some x → x.key? = some p.key) →
              c ∈ (setBucket s p.key (replace p.key o (s.ipq (hash p.key))) dn).ipq (hash p.key) →
              c ∈ s.ipq (hash p.key) := by
            intro o dn ho h
            rw [setBucket_same] at h
            rcases replace_mem h with h | h
            · exact h
            · exact absurd ((ho c h).symm.trans hck) (by simpa using Ne.symm hkp)
          split at hc
          · split at hc
            · exact hc
            · rw [setBucket_same] at hc
              rcases List.mem_cons.1 hc with rfl | hc
              · exact absurd ((new_chain_key p _ _).2.symm.trans hck) (by simpa using Ne.symm hkp)
              · exact hc
          · next c0 hf =>
            obtain ⟨hm0, hk0⟩ := findChain_some hf
            split at hc
            · exact hr _ _ (fun x hx => by cases hx; exact hk0) hc
            · split at hc
              · exact hr _ _ (fun x hx => by cases hx; exact hk0) hc
              · next c' hi' =>
                have := insert_key ((hs _).1 c0 hm0) hk0 hi'
                split at hc
                · exact hr _ _ (fun x hx => by cases hx; exact this.2) hc
                · exact hr _ _ (fun x hx => by cases hx) hc
                · exact hr _ _ (fun x hx => by cases hx) hc
        rw [hi] at hc
        rw [hi]
        exact hp _ c (hold c hc hk) k hk
    · have hsame : (reass s p).1.ipq i = s.ipq i := by
        unfold reass
        rw [if_neg (by omega), if_neg (by simp [hh.2])]
        simp only
        split <;> (try split) <;> (try split) <;> (try split) <;> simp [setBucket, hi]
      rw [hsame] at hc
      exact hp i c hc k hk
  · rw [(reass_noop hh).1]; exact hp

theorem run_placed : ∀ (ops : List Op) (s : St), WF s → Placed s → Placed (run s ops).1 := by
  intro ops
  induction ops with
  | nil => intro s _ h; exact h
  | cons o ops ih =>
    intro s w h
    cases o with
    | tick =>
      apply ih _ (tick_wf w).1
      intro i c hc k hk
      obtain ⟨c0, h0, h1⟩ := List.mem_filterMap.1 hc
      exact h i c0 h0 k (by rw [← (chainWF_congr (ageChain_frags h1).1).2]; exact hk)
    | recv p =>
      exact ih _ (run_wf [.recv p] s w) (reass_placed w h p)

theorem noQueue_iff {s : St} (hp : Placed s) (k : Key) : NoQueue s k ↔ chainOf s k = none := by
  unfold NoQueue chainOf findChain
  rw [List.find?_eq_none]
  constructor
  · intro h c hc; simpa using h _ c hc
  · intro h i c hc hk
    have := hp i c hc k hk
    subst this
    exact h c hc (by simpa using hk)

end Verif.Reass
