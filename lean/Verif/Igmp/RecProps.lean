import Verif.Igmp.Rec
/-!
# What the records of an IGMPv3 report say

The specification is the reader of RFC 3376, section 4.2: `parse` reads the group records of a report.
-/
namespace Verif.Igmp
open Verif.Mcast (Mode)

/-! ## Specification -/

/-- A group record as a router reads it. -/
structure Rec where
  type : Nat
  group : Nat
  srcs : List Nat
deriving DecidableEq, Repr

/-- RFC 3376, 4.2.4-4.2.9: type (8 bits), length of the auxiliary data (8 bits, must be 0 here), number of sources (16 bits),
group, sources.  `none`: the data end within a record. -/
def parseN : Nat → List Nat → Option (List Rec)
  | _, [] => some []
  | 0, _ => none
  | _ + 1, [_] => none
  | k + 1, h :: g :: ws =>
    let n := h % 65536
    if h / 65536 % 256 ≠ 0 ∨ ws.length < n then none
    else match parseN k (ws.drop n) with
      | none => none
      | some rs => some (⟨h / 16777216, g, ws.take n⟩ :: rs)

/-- The group records in a packet. -/
def parse (ws : List Nat) : Option (List Rec) := parseN ws.length ws

/-- The sources a record of the present state has to list: those in the filter mode of the group (none when the group is
left), and only those asked for in the answer to a query for sources. -/
def inMode (g : Grp) (isSource : Bool) : List Nat :=
  match g.mode1 with
  | .undef => []
  | m => (g.srcs.filter (fun s => s.now = m ∧ (isSource = true → s.recorded = true))).map Src.addr

/-- The type of the record: 1 and 2: the present mode is INCLUDE, EXCLUDE; 3 and 4: it has changed to. -/
def wantType (isChange : Bool) : Mode → Nat
  | .excl => if isChange then 4 else 2
  | _ => if isChange then 3 else 1

/-- Room for sources in a report of its own. -/
def room (e : Env) : Nat := (e.mtu - 40) / 4

/-! ## Records in packets -/

/-- The words of a record. -/
def encode (r : Rec) : List Nat := hdr r.type r.srcs.length :: r.group :: r.srcs

theorem hdr_num {t n : Nat} (hn : n < 65536) : hdr t n % 65536 = n := by unfold hdr; omega
theorem hdr_type {t n : Nat} : hdr t n / 16777216 = t := by unfold hdr; omega
theorem hdr_aux {t n : Nat} : hdr t n / 65536 % 256 = 0 := by unfold hdr; omega

theorem parseN_mono {k k' : Nat} {ws : List Nat} {rs : List Rec} (h : parseN k ws = some rs) (hk : k ≤ k') :
    parseN k' ws = some rs := by
  induction k generalizing k' ws rs with
  | zero =>
    cases ws with
    | nil => simpa [parseN] using h
    | cons a l => simp [parseN] at h
  | succ k ih =>
    cases ws with
    | nil => simpa [parseN] using h
    | cons a l =>
      cases l with
      | nil => simp [parseN] at h
      | cons b l =>
        obtain ⟨k', rfl⟩ : ∃ j, k' = j + 1 := ⟨k' - 1, by omega⟩
        simp only [parseN] at h ⊢
        split at h
        · simp at h
        · rename_i hc
          rw [if_neg hc]
          cases hr : parseN k (l.drop (a % 65536)) with
          | none => simp [hr] at h
          | some x => rw [ih hr (by omega)]; simpa [hr] using h

theorem parseN_encode {k : Nat} {ws : List Nat} {rs : List Rec} (r : Rec) (hn : r.srcs.length < 65536)
    (h : parseN k ws = some rs) : parseN (k + 1) (encode r ++ ws) = some (r :: rs) := by
  have hd : (r.srcs ++ ws).drop r.srcs.length = ws := by simp
  have ht : (r.srcs ++ ws).take r.srcs.length = r.srcs := by simp
  simp [encode, parseN, hdr_num hn, hdr_type, hdr_aux, h]

/-- Packets are read back record by record. -/
theorem parse_encode {rs : List Rec} (h : ∀ r ∈ rs, r.srcs.length < 65536) : parse (rs.flatMap encode) = some rs := by
  have hk : ∀ rs : List Rec, (∀ r ∈ rs, r.srcs.length < 65536) → parseN rs.length (rs.flatMap encode) = some rs := by
    intro rs
    induction rs with
    | nil => intro _; simp [parseN]
    | cons r rs ih =>
      intro h
      have := parseN_encode (k := rs.length) r (h r (by simp)) (ih fun x hx => h x (by simp [hx]))
      simpa using this
  have hl : rs.length ≤ (rs.flatMap encode).length := by
    clear h
    induction rs with
    | nil => simp
    | cons r rs ih => simp [encode] at ih ⊢; omega
  exact parseN_mono (hk rs h) hl

theorem parseN_append {k : Nat} {ws : List Nat} {rs : List Rec} (r : Rec) (hn : r.srcs.length < 65536)
    (h : parseN k ws = some rs) : parseN (k + 1) (ws ++ encode r) = some (rs ++ [r]) := by
  induction k generalizing ws rs with
  | zero =>
    cases ws with
    | nil =>
      simp only [parseN, Option.some.injEq] at h
      subst h
      have := parseN_encode (k := 0) (ws := []) (rs := []) r hn (by simp [parseN])
      simpa using this
    | cons a l => simp [parseN] at h
  | succ k ih =>
    cases ws with
    | nil =>
      simp only [parseN, Option.some.injEq] at h
      subst h
      have := parseN_encode (k := k + 1) (ws := []) (rs := []) r hn (by simp [parseN])
      simpa using this
    | cons a l =>
      cases l with
      | nil => simp [parseN] at h
      | cons b l =>
        rw [parseN] at h
        simp only [List.cons_append]
        rw [parseN]
        split at h
        · simp at h
        · rename_i hc
          have hle : a % 65536 ≤ l.length := by omega
          rw [if_neg (by simp only [List.length_append]; omega)]
          cases hr : parseN k (l.drop (a % 65536)) with
          | none => simp [hr] at h
          | some x =>
            have := ih hr
            rw [List.drop_append_of_le_length hle, this, List.take_append_of_le_length hle]
            simp only [hr, Option.some.injEq] at h
            subst h
            simp

/-- A record appended to a packet is read after those that were there. -/
theorem parse_append {ws : List Nat} {rs : List Rec} (r : Rec) (hn : r.srcs.length < 65536) (h : parse ws = some rs) :
    parse (ws ++ encode r) = some (rs ++ [r]) :=
  parseN_mono (parseN_append r hn h) (by simp [encode])

theorem parse_one (r : Rec) (hn : r.srcs.length < 65536) : parse (encode r) = some [r] := by
  have := parse_encode (rs := [r]) (by simpa using hn)
  simpa using this

theorem map_parse (rs : List Rec) (h : ∀ r ∈ rs, r.srcs.length < 65536) :
    (rs.map fun r => (⟨encode r, 1⟩ : Pkt)).map (fun p => parse p.words) = rs.map fun r => some [r] := by
  induction rs with
  | nil => rfl
  | cons r rs ih =>
    rw [List.map_cons, List.map_cons, List.map_cons, ih fun x hx => h x (List.mem_cons_of_mem _ hx),
      parse_one r (h r List.mem_cons_self)]

/-! ## The loops over the sources -/

theorem takeSrcs_exact (sel : Src → Bool) (lim n : Nat) (ss : List Src) :
    (takeSrcs sel lim n ss).1 ++ ((takeSrcs sel lim n ss).2.filter sel).map Src.addr =
      (ss.filter sel).map Src.addr := by
  induction ss generalizing n with
  | nil => simp [takeSrcs]
  | cons s ss ih =>
    rw [takeSrcs]
    split
    · rename_i hs
      split
      · simp [hs]
      · simp [hs, ih]
    · rename_i hs
      simp [hs, ih]

theorem takeSrcs_len (sel : Src → Bool) (lim n : Nat) (ss : List Src) (h : n < lim) :
    n + (takeSrcs sel lim n ss).1.length ≤ lim := by
  induction ss generalizing n with
  | nil => simp [takeSrcs]; omega
  | cons s ss ih =>
    rw [takeSrcs]
    split
    · split
      · simp; omega
      · have := ih (n + 1) (by omega); simp; omega
    · exact ih n h

/-- All have been seen, or the record is full. -/
theorem takeSrcs_full (sel : Src → Bool) (lim n : Nat) (ss : List Src) :
    (takeSrcs sel lim n ss).2 = [] ∨ n + (takeSrcs sel lim n ss).1.length = lim := by
  induction ss generalizing n with
  | nil => simp [takeSrcs]
  | cons s ss ih =>
    rw [takeSrcs]
    split
    · split
      · right; simpa using by omega
      · rcases ih (n + 1) with h | h
        · left; simpa using h
        · right; simp; omega
    · exact ih n

theorem takeSrcs_rest (sel : Src → Bool) (lim n : Nat) (ss : List Src) (h : ss ≠ []) :
    (takeSrcs sel lim n ss).2.length < ss.length := by
  induction ss generalizing n with
  | nil => exact absurd rfl h
  | cons s ss ih =>
    rw [takeSrcs]
    by_cases hss : ss = []
    · subst hss; split
      · split <;> simp [takeSrcs]
      · simp [takeSrcs]
    · split
      · split
        · simp
        · have := ih (n + 1) hss; simp; omega
      · have := ih n hss; simp; omega

/-- The packets of the second loop: one record each. -/
theorem morePkts_exact {maxlen lim type group : Nat} {sel : Src → Bool} (hlim : 0 < lim) :
    ∀ (k : Nat) (q : List Pkt) (ss : List Src), ss.length ≤ k →
      ∃ rs : List Rec, (morePkts maxlen lim type group sel k q ss).2 = q ++ rs.map (fun r => ⟨encode r, 1⟩) ∧
        (∀ r ∈ rs, r.type = type ∧ r.group = group ∧ r.srcs.length ≤ lim) ∧
        ((morePkts maxlen lim type group sel k q ss).1 = true →
          rs.flatMap Rec.srcs = (ss.filter sel).map Src.addr) ∧
        (rs = [] → (morePkts maxlen lim type group sel k q ss).1 = true → ss = []) ∧
        ((morePkts maxlen lim type group sel k q ss).1 = false → maxlen ≤ q.length + rs.length) := by
  intro k
  induction k with
  | zero =>
    intro q ss h
    have : ss = [] := by simpa using h
    subst this
    exact ⟨[], by simp [morePkts]⟩
  | succ k ih =>
    intro q ss h
    cases ss with
    | nil => exact ⟨[], by simp [morePkts]⟩
    | cons s ss =>
      rw [morePkts]
      by_cases hq : q.length ≥ maxlen
      · rw [if_pos hq]
        exact ⟨[], by simp, by simp, by simp, by simp, by simpa using hq⟩
      · rw [if_neg hq]
        have hr := takeSrcs_rest sel lim 0 (s :: ss) (by simp)
        simp only
        obtain ⟨rs, h1, h2, h3, h4, h5⟩ := ih (q ++ [⟨hdr type (takeSrcs sel lim 0 (s :: ss)).1.length :: group ::
          (takeSrcs sel lim 0 (s :: ss)).1, 1⟩]) (takeSrcs sel lim 0 (s :: ss)).2 (by simp at h hr; omega)
        refine ⟨⟨type, group, (takeSrcs sel lim 0 (s :: ss)).1⟩ :: rs, ?_, ?_, ?_, by simp, ?_⟩
        · rw [h1]; simp [encode]
        · intro r hr
          rcases List.mem_cons.mp hr with rfl | hr
          · have := takeSrcs_len sel lim 0 (s :: ss) hlim
            exact ⟨rfl, rfl, by simpa using this⟩
          · exact h2 r hr
        · intro hok
          rw [List.flatMap_cons, h3 hok]
          exact takeSrcs_exact sel lim 0 (s :: ss)
        · intro hf
          have := h5 hf
          simp at this ⊢; omega

/-! ## Reports that start with a new packet -/

theorem inMode_filter (g : Grp) (src : Bool) :
    inMode g src = (g.srcs.filter (inRecord g.mode1 src)).map Src.addr := by
  unfold inMode
  have hs : ∀ (m : Mode) (s : Src), m ≠ .undef →
      decide (s.now = m ∧ (src = true → s.recorded = true)) = inRecord m src s := by
    intro m s hm
    unfold inRecord
    cases src <;> cases h : s.recorded <;> cases hn : s.now <;> cases m <;> simp_all
  cases hm : g.mode1 with
  | undef => simp [inRecord]
  | incl => simp only [hs .incl _ (by simp)]
  | excl => simp only [hs .excl _ (by simp)]

/-- Packets `q'` are `q` and reports of one record each, which fit the MTU (20 bytes of IP header, 4 of router alert, 8 of
IGMP), for the group, of the type, and together list `addrs`. -/
def Reports (e : Env) (q q' : List Pkt) (type group : Nat) (addrs : List Nat) : Prop :=
  ∃ ps recs, q' = q ++ ps ∧ recs ≠ [] ∧ ps.map (fun p => parse p.words) = recs.map (fun r => some [r]) ∧
    (∀ p ∈ ps, p.nrecs = 1 ∧ 20 + 4 + 8 + 4 * p.words.length ≤ e.mtu) ∧
    (∀ r ∈ recs, r.type = type ∧ r.group = group) ∧ recs.flatMap Rec.srcs = addrs

theorem putRecord_new {e : Env} {maxlen type : Nat} {q : List Pkt} {g : Grp} {hasSrc isGroup isSource : Bool}
    (hm : 44 ≤ e.mtu) (hM : e.mtu ≤ 65535) (hfresh : q = [] ∨ isGroup = true)
    (hsrc : hasSrc = false → inMode g isSource = []) :
    ((putRecord e maxlen q g type hasSrc isGroup isSource).1 < 0 →
      maxlen ≤ (putRecord e maxlen q g type hasSrc isGroup isSource).2.length) ∧
    ((putRecord e maxlen q g type hasSrc isGroup isSource).1 = 0 →
      (putRecord e maxlen q g type hasSrc isGroup isSource).2 = q ∧ isSource = true ∧ inMode g isSource = []) ∧
    (0 < (putRecord e maxlen q g type hasSrc isGroup isSource).1 →
      Reports e q (putRecord e maxlen q g type hasSrc isGroup isSource).2 type g.group (inMode g isSource)) := by
  have hold : ∀ need, tailFor (fun m0 => another isGroup m0 && fits e need m0) q = none := by
    intro need
    rcases hfresh with h | h
    · subst h; rfl
    · unfold tailFor
      cases splitTail q with
      | none => rfl
      | some x => simp [another, h]
  have hlim : 0 < (e.mtu - leading - 8) / 4 := by unfold leading; omega
  have hlim2 : (e.mtu - leading - 8) / 4 < 65536 := by unfold leading; omega
  unfold putRecord
  simp only [hold, limFor]
  by_cases hq : q.length ≥ maxlen
  · simp [hq]
  simp only [ge_iff_le, true_and, if_neg (show ¬ maxlen ≤ q.length from hq)]
  generalize hl : (e.mtu - leading - 8) / 4 = lim at hlim hlim2
  generalize hr : (if hasSrc = true then takeSrcs (inRecord g.mode1 isSource) lim 0 g.srcs else ([], [])) = r
  have hx : r.1 ++ (r.2.filter (inRecord g.mode1 isSource)).map Src.addr = inMode g isSource := by
    subst hr
    split
    · rw [inMode_filter]; exact takeSrcs_exact _ _ _ _
    · rename_i h; rw [hsrc (by simpa using h)]; rfl
  have hlen : r.1.length ≤ lim := by
    subst hr
    split
    · simpa using takeSrcs_len (inRecord g.mode1 isSource) lim 0 g.srcs hlim
    · simp
  have hfull : r.2 = [] ∨ r.1.length = lim := by
    subst hr
    split
    · simpa using takeSrcs_full (inRecord g.mode1 isSource) lim 0 g.srcs
    · simp
  by_cases he : isSource = true ∧ r.1 = []
  · rw [if_pos he]
    refine ⟨by simp, fun _ => ⟨rfl, he.1, ?_⟩, by simp⟩
    rw [← hx]
    rcases hfull with h | h
    · simp [h, he.2]
    · rw [he.2] at h; simp at h; omega
  rw [if_neg he]
  obtain ⟨rs, h1, h2, h3, _, h5⟩ := morePkts_exact (maxlen := maxlen) (lim := lim) (type := type) (group := g.group)
    (sel := inRecord g.mode1 isSource) hlim r.2.length (q ++ [⟨hdr type r.1.length :: g.group :: r.1, 1⟩]) r.2
    (Nat.le_refl _)
  generalize hz : morePkts maxlen lim type g.group (inRecord g.mode1 isSource) r.2.length
    (q ++ [⟨hdr type r.1.length :: g.group :: r.1, 1⟩]) r.2 = z at h1 h3 h5
  simp only
  cases hz1 : z.1 with
  | false =>
    refine ⟨fun _ => ?_, by simp, by simp⟩
    have := h5 hz1
    rw [h1]; simp at this ⊢; omega
  | true =>
    refine ⟨by simp, by simp, fun _ => ?_⟩
    have hsz : ∀ rc ∈ (⟨type, g.group, r.1⟩ :: rs : List Rec), rc.type = type ∧ rc.group = g.group ∧ rc.srcs.length ≤ lim := by
      intro rc hrc
      rcases List.mem_cons.mp hrc with rfl | hrc
      · exact ⟨rfl, rfl, hlen⟩
      · exact h2 rc hrc
    refine ⟨(⟨type, g.group, r.1⟩ :: rs).map (fun r => ⟨encode r, 1⟩), ⟨type, g.group, r.1⟩ :: rs, ?_, by simp, ?_, ?_, ?_, ?_⟩
    · rw [h1]; simp [encode]
    · exact map_parse _ fun rc hrc => Nat.lt_of_le_of_lt (hsz rc hrc).2.2 hlim2
    · intro p hp
      obtain ⟨rc, hrc, rfl⟩ := List.mem_map.mp hp
      refine ⟨rfl, ?_⟩
      have := (hsz rc hrc).2.2
      simp only [encode, List.length_cons]
      unfold leading at hl
      omega
    · intro rc hrc; exact ⟨(hsz rc hrc).1, (hsz rc hrc).2.1⟩
    · rw [List.flatMap_cons, h3 hz1]; exact hx

/-- **C195.** A report of the present state of a group, or of a change of its filter mode, that starts with a new packet
(the first group of a report; the answer to a query for the group; the queue of changes): every packet fits the MTU and
reads as one record of the right type for the group, and together the records list exactly the sources in the mode of the
group, in order, each in one record.  Only a full queue makes the call fail; nothing is queued only in answer to a query for
sources none of which applies. -/
theorem report_states_filter {e : Env} {maxlen : Nat} {q : List Pkt} {g : Grp} {isChange isGroup isSource : Bool}
    (hm : 44 ≤ e.mtu) (hM : e.mtu ≤ 65535) (hfresh : q = [] ∨ isGroup = true)
    (hmode : if isChange then g.mode1 ≠ g.mode0 else g.mode1 ≠ .undef) :
    ((enqueue e maxlen q g isChange isGroup isSource).1 < 0 →
      maxlen ≤ (enqueue e maxlen q g isChange isGroup isSource).2.length) ∧
    ((enqueue e maxlen q g isChange isGroup isSource).1 = 0 →
      (enqueue e maxlen q g isChange isGroup isSource).2 = q ∧ isSource = true ∧ inMode g isSource = []) ∧
    (0 < (enqueue e maxlen q g isChange isGroup isSource).1 →
      Reports e q (enqueue e maxlen q g isChange isGroup isSource).2 (wantType isChange g.mode1) g.group
        (inMode g isSource)) := by
  have key : ∃ hs, recType g isChange = some (wantType isChange g.mode1, hs) ∧
      (hs = false → inMode g isSource = []) := by
    unfold recType wantType
    cases hc : isChange with
    | true =>
      rw [hc] at hmode
      simp only [if_true] at hmode
      cases hg : g.mode1 with
      | undef => exact ⟨_, by rw [if_pos rfl, if_pos (by rwa [hg] at hmode)]; rfl, by simp [inMode, hg]⟩
      | incl =>
        refine ⟨_, by rw [if_pos rfl, if_pos (by rwa [hg] at hmode)]; rfl, ?_⟩
        intro h
        have : g.srcs = [] := by simp at h; exact h.2
        simp [inMode, hg, this]
      | excl =>
        refine ⟨_, by rw [if_pos rfl, if_pos (by rwa [hg] at hmode)]; rfl, ?_⟩
        intro h
        have : g.srcs = [] := by simp at h; exact h.2
        simp [inMode, hg, this]
    | false =>
      rw [hc] at hmode
      cases hg : g.mode1 with
      | undef => exact absurd hg (by simpa using hmode)
      | incl =>
        refine ⟨_, rfl, ?_⟩
        intro h
        have : g.srcs = [] := by simp at h; exact h.2
        simp [inMode, hg, this]
      | excl =>
        refine ⟨_, rfl, ?_⟩
        intro h
        have : g.srcs = [] := by simp at h; exact h.2
        simp [inMode, hg, this]
  obtain ⟨hs, h1, h2⟩ := key
  have ht : wantType isChange g.mode1 ≠ 0 := by
    unfold wantType; cases g.mode1 <;> cases isChange <;> simp
  unfold enqueue
  simp only [h1, if_neg ht]
  exact putRecord_new hm hM hfresh h2

end Verif.Igmp
