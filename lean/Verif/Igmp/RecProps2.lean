import Verif.Igmp.RecProps
/-!
# Records appended to a report, and what does not hold of reports
-/
namespace Verif.Igmp
open Verif.Mcast (Mode)

theorem splitTail_concat (q0 : List Pkt) (m0 : Pkt) : splitTail (q0 ++ [m0]) = some (q0, m0) := by
  simp [splitTail]

theorem putRecord_old {e : Env} {maxlen type : Nat} {q0 : List Pkt} {m0 : Pkt} {g : Grp} {hasSrc : Bool} {rs0 : List Rec}
    (hm : 44 ≤ e.mtu) (hM : e.mtu ≤ 65535)
    (hn : m0.nrecs + 1 ≤ 65535) (hfit : m0.len + (if hasSrc then 12 else 8) < e.mtu - 32)
    (hp : parse m0.words = some rs0) (hsrc : hasSrc = false → inMode g false = [])
    (hok : 0 < (putRecord e maxlen (q0 ++ [m0]) g type hasSrc false false).1) :
    ∃ m rc ps recs, (putRecord e maxlen (q0 ++ [m0]) g type hasSrc false false).2 = q0 ++ m :: ps ∧
      parse m.words = some (rs0 ++ [rc]) ∧ m.nrecs = m0.nrecs + 1 ∧ 4 * m.words.length ≤ e.mtu ∧
      ps.map (fun p => parse p.words) = recs.map (fun r => some [r]) ∧
      (∀ p ∈ ps, p.nrecs = 1 ∧ 20 + 4 + 8 + 4 * p.words.length ≤ e.mtu) ∧
      (∀ r ∈ rc :: recs, r.type = type ∧ r.group = g.group) ∧
      (rc :: recs).flatMap Rec.srcs = inMode g false ∧
      (20 + 4 + 8 + 4 * m0.words.length + 8 + 4 * (inMode g false).length ≤ e.mtu →
        ps = [] ∧ 20 + 4 + 8 + 4 * m.words.length ≤ e.mtu) := by
  have hneed : 8 ≤ (if hasSrc = true then 12 else 8) := by split <;> omega
  have hlen0 : m0.len = 4 * m0.words.length := rfl
  have hold : tailFor (fun m0 => another false m0 && fits e (if hasSrc = true then 12 else 8) m0) (q0 ++ [m0]) =
      some (q0, m0) := by
    unfold tailFor
    rw [splitTail_concat]
    simp only
    rw [if_pos]
    simp only [another, fits, leading, Bool.not_false, Bool.true_and, Bool.and_eq_true, decide_eq_true_eq]
    exact ⟨hn, decide_eq_true hfit⟩
  have hlim : 0 < (e.mtu - m0.len - 8) / 4 := by omega
  have hlim2 : (e.mtu - m0.len - 8) / 4 < 65536 := by omega
  have hL : 0 < (e.mtu - leading - 8) / 4 := by unfold leading; omega
  have hL2 : (e.mtu - leading - 8) / 4 < 65536 := by unfold leading; omega
  unfold putRecord at hok ⊢
  simp only [hold, limFor, reduceCtorEq, false_and, if_false, Bool.false_eq_true] at hok ⊢
  generalize hl : (e.mtu - m0.len - 8) / 4 = lim at hlim hlim2 hok ⊢
  generalize hl2 : (e.mtu - leading - 8) / 4 = lim2 at hL hL2 hok ⊢
  generalize hr : (if hasSrc = true then takeSrcs (inRecord g.mode1 false) lim 0 g.srcs else ([], [])) = r at hok ⊢
  have hx : r.1 ++ (r.2.filter (inRecord g.mode1 false)).map Src.addr = inMode g false := by
    subst hr
    split
    · rw [inMode_filter]; exact takeSrcs_exact _ _ _ _
    · rename_i h; rw [hsrc (by simpa using h)]; rfl
  have hlen : r.1.length ≤ lim := by
    subst hr
    split
    · simpa using takeSrcs_len (inRecord g.mode1 false) lim 0 g.srcs hlim
    · simp
  have hfull : r.2 = [] ∨ r.1.length = lim := by
    subst hr
    split
    · simpa using takeSrcs_full (inRecord g.mode1 false) lim 0 g.srcs
    · simp
  obtain ⟨rs, h1, h2, h3, _, _⟩ := morePkts_exact (maxlen := maxlen) (lim := lim2) (type := type) (group := g.group)
    (sel := inRecord g.mode1 false) hL r.2.length
    (q0 ++ [⟨m0.words ++ hdr type r.1.length :: g.group :: r.1, m0.nrecs + 1⟩]) r.2 (Nat.le_refl _)
  generalize hz : morePkts maxlen lim2 type g.group (inRecord g.mode1 false) r.2.length
    (q0 ++ [⟨m0.words ++ hdr type r.1.length :: g.group :: r.1, m0.nrecs + 1⟩]) r.2 = z at h1 h3 hok ⊢
  have hz1 : z.1 = true := by
    cases hz1 : z.1 with
    | true => rfl
    | false => rw [hz1] at hok; simp at hok
  have h65 : (⟨type, g.group, r.1⟩ : Rec).srcs.length < 65536 := Nat.lt_of_le_of_lt hlen hlim2
  refine ⟨⟨m0.words ++ encode ⟨type, g.group, r.1⟩, m0.nrecs + 1⟩, ⟨type, g.group, r.1⟩,
    rs.map (fun r => ⟨encode r, 1⟩), rs, ?_, parse_append _ h65 hp, rfl, ?_, ?_, ?_, ?_, ?_, ?_⟩
  · rw [h1]; simp [encode]
  · simp only [encode, List.length_append, List.length_cons]; omega
  · exact map_parse _ fun rc hrc => Nat.lt_of_le_of_lt (h2 rc hrc).2.2 hL2
  · intro p hp
    obtain ⟨rc, hrc, rfl⟩ := List.mem_map.mp hp
    refine ⟨rfl, ?_⟩
    have := (h2 rc hrc).2.2
    simp only [encode, List.length_cons]
    unfold leading at hl2
    omega
  · intro rc hrc
    rcases List.mem_cons.mp hrc with rfl | hrc
    · exact ⟨rfl, rfl⟩
    · exact ⟨(h2 rc hrc).1, (h2 rc hrc).2.1⟩
  · rw [List.flatMap_cons, h3 hz1]; exact hx
  · intro hsmall
    have hl' : r.1.length ≤ (inMode g false).length := by rw [← hx]; simp
    have hnil : r.2 = [] := by
      rcases hfull with h | h
      · exact h
      · exfalso; omega
    constructor
    · have h0 : z.2 = q0 ++ [⟨m0.words ++ hdr type r.1.length :: g.group :: r.1, m0.nrecs + 1⟩] := by
        rw [← hz, hnil]; simp [morePkts]
      rw [h0] at h1
      have : (rs.map fun r => (⟨encode r, 1⟩ : Pkt)).length = 0 := by
        have := congrArg List.length h1
        simp at this
        simp [this]
      exact List.length_eq_zero_iff.mp this
    · simp only [encode, List.length_append, List.length_cons]; omega

/-- The part of C196 that holds: a further record is appended to a report with room for it such that the records already
there are read as before and the new one, of the right type and for the group, after them, and the count of records grows
by one; if the list of sources ends there, it goes on in further reports, and together they list exactly the sources in the
mode of the group.  The packet fits the MTU if all sources fit; missing: in general only the records alone, without the 32
bytes of headers, fit. -/
theorem report_appends_partial {e : Env} {maxlen : Nat} {q0 : List Pkt} {m0 : Pkt} {g : Grp} {rs0 : List Rec}
    (hm : 44 ≤ e.mtu) (hM : e.mtu ≤ 65535) (hmode : g.mode1 ≠ .undef)
    (hn : m0.nrecs + 1 ≤ 65535) (hfit : m0.len + 12 < e.mtu - 32) (hp : parse m0.words = some rs0)
    (hok : 0 < (enqueue e maxlen (q0 ++ [m0]) g false false false).1) :
    ∃ m rc ps recs, (enqueue e maxlen (q0 ++ [m0]) g false false false).2 = q0 ++ m :: ps ∧
      parse m.words = some (rs0 ++ [rc]) ∧ m.nrecs = m0.nrecs + 1 ∧ 4 * m.words.length ≤ e.mtu ∧
      ps.map (fun p => parse p.words) = recs.map (fun r => some [r]) ∧
      (∀ p ∈ ps, p.nrecs = 1 ∧ 20 + 4 + 8 + 4 * p.words.length ≤ e.mtu) ∧
      (∀ r ∈ rc :: recs, r.type = wantType false g.mode1 ∧ r.group = g.group) ∧
      (rc :: recs).flatMap Rec.srcs = inMode g false ∧
      (20 + 4 + 8 + 4 * m0.words.length + 8 + 4 * (inMode g false).length ≤ e.mtu →
        ps = [] ∧ 20 + 4 + 8 + 4 * m.words.length ≤ e.mtu) := by
  have key : ∃ hs, recType g false = some (wantType false g.mode1, hs) ∧ (hs = false → inMode g false = []) := by
    unfold recType wantType
    cases hg : g.mode1 with
    | undef => exact absurd hg hmode
    | incl =>
      refine ⟨_, rfl, ?_⟩
      intro h
      have : g.srcs = [] := by simp at h; exact h.2
      simp [inMode, hg, this]
    | excl =>
      refine ⟨_, rfl, ?_⟩
      intro h
      have : g.srcs = [] := by simp at h; exact h.2
      simp [inMode, hg, this]
  obtain ⟨hs, h1, h2⟩ := key
  have ht : wantType false g.mode1 ≠ 0 := by unfold wantType; cases g.mode1 <;> simp
  unfold enqueue at hok ⊢
  simp only [h1, if_neg ht] at hok ⊢
  exact putRecord_old hm hM hn (by split <;> omega) hp h2 hok

/-- Sources `0x0a000001`, ... in INCLUDE mode. -/
def manySrcs (n : Nat) (m : Mode) : List Src := (List.range n).map fun i => ⟨0x0a000001 + i, m, m, false⟩

/-- C196 in full fails: the room in the packet is computed without the 32 bytes of IP and IGMP headers, so the second
record of a report may take it over the MTU: with 350 sources in one group and 14 in the other, the report has 1504
bytes on Ethernet. -/
theorem report_fits_mtu_violated :
    let e : Env := ⟨1500, 7⟩
    let q1 := (enqueue e 50 [] ⟨0xe8000001, .incl, .incl, false, false, manySrcs 350 .incl⟩ false false false).2
    let q2 := (enqueue e 50 q1 ⟨0xe8000002, .incl, .incl, false, false, manySrcs 14 .incl⟩ false false false).2
    q1.length = 1 ∧ (q1.all fun p => 32 + 4 * p.words.length ≤ 1500) = true ∧
      q2.length = 1 ∧ q2.map (fun p => 32 + 4 * p.words.length) = [1504] := by
  decide +kernel

/-- C197 fails: when the sources that remain for a further packet turn out not to be in the mode of the group, a record
without sources is sent: "change to INCLUDE mode {}" is how a group is left.  Here the group changes from EXCLUDE to INCLUDE
with 134 sources on a link with MTU 576, while a source beyond them is given up. -/
theorem report_never_empty_violated :
    let g : Grp := ⟨0xe8000001, .excl, .incl, false, false,
      manySrcs 134 .incl ++ [⟨0x0b000001, .excl, .undef, false⟩]⟩
    (enqueue ⟨576, 7⟩ 50 [] g true false false).2.map (fun p => (parse p.words).map (·.map fun r => (r.type, r.srcs.length)))
      = [some [(3, 134)], some [(3, 0)]] := by
  decide +kernel

theorem takeSrcs_sub (sel : Src → Bool) (lim n : Nat) (l : List Src) (x : Src) :
    x ∈ (takeSrcs sel lim n l).2 → x ∈ l := by
  induction l generalizing n with
  | nil => simp [takeSrcs]
  | cons a l ih2 =>
    intro hx
    rw [takeSrcs] at hx
    split at hx
    · split at hx
      · exact List.mem_cons_of_mem _ hx
      · exact List.mem_cons_of_mem _ (ih2 _ hx)
    · exact List.mem_cons_of_mem _ (ih2 _ hx)

theorem morePkts_nonempty {maxlen lim type group : Nat} {sel : Src → Bool} :
    ∀ (k : Nat) (q : List Pkt) (ss : List Src), (∀ s ∈ ss, sel s = true) → (∀ p ∈ q, 2 < p.words.length) →
      ∀ p ∈ (morePkts maxlen lim type group sel k q ss).2, 2 < p.words.length := by
  intro k
  induction k with
  | zero => intro q ss _ hq; simpa [morePkts] using hq
  | succ k ih =>
    intro q ss hs hq
    cases ss with
    | nil => simpa [morePkts] using hq
    | cons s ss =>
      rw [morePkts]
      split
      · exact hq
      · apply ih
        · intro x hx; exact hs x (takeSrcs_sub sel lim 0 _ x hx)
        · intro p hp
          rcases List.mem_append.mp hp with hp | hp
          · exact hq p hp
          · have : 0 < (takeSrcs sel lim 0 (s :: ss)).1.length := by
              rw [takeSrcs, if_pos (hs s (by simp))]
              split <;> simp
            simp only [List.mem_singleton] at hp
            subst hp
            simp only [List.length_cons]
            omega

/-- The part of C197 that holds: if the group has sources and all of them are in its mode, every packet has sources after
the 8 bytes of its record header. -/
theorem report_never_empty_partial {e : Env} {maxlen : Nat} {g : Grp} {isChange isGroup : Bool}
    (hmode : g.mode1 ≠ .undef) (hch : if isChange then g.mode1 ≠ g.mode0 else True)
    (hall : ∀ s ∈ g.srcs, s.now = g.mode1) (hne : g.srcs ≠ []) :
    ∀ p ∈ (enqueue e maxlen [] g isChange isGroup false).2, 2 < p.words.length := by
  have hsel : ∀ s ∈ g.srcs, inRecord g.mode1 false s = true := by
    intro s hs
    simp [inRecord, hall s hs, hmode]
  obtain ⟨s, ss, hg⟩ : ∃ s ss, g.srcs = s :: ss := by
    cases h : g.srcs with
    | nil => exact absurd h hne
    | cons s ss => exact ⟨s, ss, rfl⟩
  have key : ∃ t, t ≠ 0 ∧ recType g isChange = some (t, true) := by
    unfold recType
    cases hc : isChange with
    | true =>
      rw [hc] at hch
      simp only [if_true] at hch
      by_cases hx : g.mode1 = .excl
      · exact ⟨4, by simp, by rw [if_pos rfl, if_pos hch, if_pos hx]; simp [hg]⟩
      · exact ⟨3, by simp, by rw [if_pos rfl, if_pos hch, if_neg hx]; simp [hg, hmode]⟩
    | false =>
      cases hm : g.mode1 with
      | undef => exact absurd hm hmode
      | incl => exact ⟨1, by simp, by simp [hg]⟩
      | excl => exact ⟨2, by simp, by simp [hg]⟩
  obtain ⟨t, ht, hr⟩ := key
  unfold enqueue
  simp only [hr, if_neg ht]
  have hold : ∀ f, tailFor f [] = none := fun _ => rfl
  unfold putRecord
  simp only [hold, limFor, List.length_nil, ge_iff_le, true_and, if_true, Bool.false_eq_true, false_and, if_false]
  split
  · simp
  · apply morePkts_nonempty
    · intro x hx
      exact hsel x (takeSrcs_sub _ _ 0 _ x hx)
    · intro p hp
      simp only [List.nil_append, List.mem_singleton] at hp
      subst hp
      have : 0 < (takeSrcs (inRecord g.mode1 false) ((e.mtu - leading - 8) / 4) 0 g.srcs).1.length := by
        rw [hg, takeSrcs, if_pos (hsel s (by simp [hg]))]
        split <;> simp
      simp only [List.length_cons]
      omega

/-- C198 fails: the sources of an EXCLUDE record that do not fit are sent in further EXCLUDE records for the group, each of
which replaces the list before (RFC 3376, 4.2.16: there must be one truncated record): the router is told to exclude only
the last 6 of 140 sources. -/
theorem exclude_in_one_record_violated :
    let g : Grp := ⟨0xe8000001, .excl, .excl, false, false, manySrcs 140 .excl⟩
    (enqueue ⟨576, 7⟩ 50 [] g false false false).2.map (fun p => (parse p.words).map (·.map fun r => (r.type, r.srcs.length)))
      = [some [(2, 134)], some [(2, 6)]] := by
  decide +kernel

/-- C198 holds while the sources fit: one record. -/
theorem exclude_in_one_record_partial {e : Env} {maxlen : Nat} {g : Grp} {isChange : Bool}
    (hm : 44 ≤ e.mtu) (hM : e.mtu ≤ 65535) (hmode : if isChange then g.mode1 ≠ g.mode0 else g.mode1 ≠ .undef)
    (hfew : 20 + 4 + 8 + 8 + 4 * (g.srcs.length + 1) ≤ e.mtu) (hml : 0 < maxlen) :
    ∃ p, (enqueue e maxlen [] g isChange false false).2 = [p] ∧
      parse p.words = some [⟨wantType isChange g.mode1, g.group, inMode g false⟩] := by
  obtain ⟨h1, h2, h3⟩ := report_states_filter (e := e) (maxlen := maxlen) (q := []) (g := g) (isChange := isChange)
    (isGroup := false) (isSource := false) hm hM (Or.inl rfl) hmode
  have hone : (enqueue e maxlen [] g isChange false false).2.length = 1 ∧
      0 < (enqueue e maxlen [] g isChange false false).1 := by
    have key : ∃ t hs, t ≠ 0 ∧ recType g isChange = some (t, hs) := by
      unfold recType
      cases hc : isChange with
      | true =>
        rw [hc] at hmode
        simp only [if_true] at hmode
        by_cases hx : g.mode1 = .excl
        · exact ⟨4, _, by simp, by rw [if_pos rfl, if_pos hmode, if_pos hx]⟩
        · exact ⟨3, _, by simp, by rw [if_pos rfl, if_pos hmode, if_neg hx]⟩
      | false =>
        rw [hc] at hmode
        cases hg : g.mode1 with
        | undef => exact absurd hg (by simpa using hmode)
        | incl => exact ⟨1, _, by simp, rfl⟩
        | excl => exact ⟨2, _, by simp, rfl⟩
    obtain ⟨t, hs, ht, hr⟩ := key
    unfold enqueue
    simp only [hr, if_neg ht]
    have hold : ∀ f, tailFor f [] = none := fun _ => rfl
    unfold putRecord
    simp only [hold, limFor, List.length_nil, ge_iff_le, true_and, if_neg (show ¬ maxlen ≤ 0 by omega),
      Bool.false_eq_true, false_and, if_false]
    have hnil : (if hs = true then takeSrcs (inRecord g.mode1 false) ((e.mtu - leading - 8) / 4) 0 g.srcs
        else ([], [])).2 = [] := by
      split
      · rcases takeSrcs_full (inRecord g.mode1 false) ((e.mtu - leading - 8) / 4) 0 g.srcs with h | h
        · exact h
        · exfalso
          have hx := takeSrcs_exact (inRecord g.mode1 false) ((e.mtu - leading - 8) / 4) 0 g.srcs
          have hl := congrArg List.length hx
          have hf := List.length_filter_le (inRecord g.mode1 false) g.srcs
          simp only [List.length_append, List.length_map] at hl
          unfold leading at hl h
          omega
      · rfl
    rw [hnil]
    simp [morePkts]
  obtain ⟨ps, recs, hq, hne, hp, _, ht, hf⟩ := h3 hone.2
  rw [List.nil_append] at hq
  have hl : recs.length = 1 := by
    have := congrArg List.length hp
    simp only [List.length_map] at this
    rw [← this, ← hq]; exact hone.1
  obtain ⟨r, rfl⟩ := List.length_eq_one_iff.mp hl
  obtain ⟨p, hps⟩ := List.length_eq_one_iff.mp (hq ▸ hone.1)
  subst hps
  refine ⟨p, hq, ?_⟩
  simp only [List.map_cons, List.map_nil, List.cons.injEq, and_true] at hp
  have h4 := ht r (by simp)
  have h5 : r.srcs = inMode g false := by simpa using hf
  rw [hp, ← h5, ← h4.1, ← h4.2]

end Verif.Igmp
