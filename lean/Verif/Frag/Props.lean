import Verif.Frag.Spec
import Verif.Reass.Props
/-! # C22, C23, C24 -/
namespace Verif.Frag

theorem optLoop_length (after : UInt8) : ∀ (l r : List UInt8), optLoop after l = some r → r.length ≤ l.length := by
  intro l
  induction hn : l.length using Nat.strongRecOn generalizing l with
  | _ n ih =>
    intro r h
    cases l with
    | nil => unfold optLoop at h; cases h; simp
    | cons o l =>
      unfold optLoop at h
      split at h
      · have := ih l.length (by simp only [List.length_cons] at hn; omega) l rfl r h
        simp only [List.length_cons] at hn
        omega
      · simp only at h
        split at h
        · cases h
        · next hz =>
          split at h
          · cases h
          · next r' hr =>
            cases h
            have hlen := ih _ (by simp only [List.length_cons] at hn; simp only [List.length_drop, List.length_cons]; omega)
              _ rfl r' hr
            simp only [List.length_cons, List.length_drop] at hn hlen
            rw [List.length_append]
            have : (if isCopied o then (o :: l).take (min (l.head?.getD after).toNat (l.length + 1)) else []).length ≤
                min (l.head?.getD after).toNat (l.length + 1) := by
              split
              · rw [List.length_take]; omega
              · simp
            omega

theorem optLoop_eol (after : UInt8) (n : Nat) : optLoop after (List.replicate n 0) = some [] := by
  induction n with
  | zero => unfold optLoop; rfl
  | succ n ih =>
    rw [List.replicate_succ]
    unfold optLoop
    rw [if_pos (by decide), ih]

theorem optLoop_enc (after : UInt8) (z : Nat) : ∀ os : List IpOpt, (∀ o ∈ os, o.ok) →
    optLoop after (encAll os ++ List.replicate z 0) = some (encAll (os.filter IpOpt.copied)) := by
  intro os
  induction os with
  | nil => intro _; simpa [encAll] using optLoop_eol after z
  | cons o os ih =>
    intro h
    have ih := ih (fun x hx => h x (List.mem_cons_of_mem _ hx))
    have ho := h o (List.mem_cons_self ..)
    have he : encAll (o :: os) ++ List.replicate z 0 = o.enc ++ (encAll os ++ List.replicate z 0) := by
      simp [encAll]
    rw [he]
    generalize encAll os ++ List.replicate z 0 = rest at ih ⊢
    cases o with
    | nop =>
      show optLoop after (1 :: rest) = _
      unfold optLoop
      rw [if_pos (by decide), ih]
      rfl
    | opt t d =>
      obtain ⟨h0, h1, hd⟩ := ho
      show optLoop after (t :: UInt8.ofNat (d.length + 2) :: (d ++ rest)) = _
      unfold optLoop
      rw [if_neg (by unfold isPad; simp [h0, h1])]
      have hlen : (UInt8.ofNat (d.length + 2)).toNat = d.length + 2 := by
        rw [UInt8.toNat_ofNat']; exact Nat.mod_eq_of_lt (by omega)
      have hn : min (((UInt8.ofNat (d.length + 2) :: (d ++ rest)).head?.getD after).toNat)
          ((UInt8.ofNat (d.length + 2) :: (d ++ rest)).length + 1) = d.length + 2 := by
        rw [List.head?_cons, Option.getD_some, hlen]
        simp only [List.length_cons, List.length_append]
        omega
      simp only [hn]
      rw [dif_neg (by omega)]
      have hdrop : (t :: UInt8.ofNat (d.length + 2) :: (d ++ rest)).drop (d.length + 2) = rest := by simp
      have htake : (t :: UInt8.ofNat (d.length + 2) :: (d ++ rest)).take (d.length + 2) =
          t :: UInt8.ofNat (d.length + 2) :: d := by simp
      rw [hdrop, htake, ih]
      by_cases hc : t &&& 0x80 = 0
      · have : isCopied t = false := by unfold isCopied; simp [hc]
        simp [this, IpOpt.copied, hc]
      · have : isCopied t = true := by unfold isCopied; simp [hc]
        simp [this, IpOpt.copied, hc, encAll, IpOpt.enc]

theorem padTo4_length (l : List UInt8) : (padTo4 l).length % 4 = 0 ∧ (padTo4 l).length < l.length + 4 := by
  unfold padTo4
  rw [List.length_append, List.length_replicate]
  omega

theorem segLen_spec {mtu hlen : Nat} (h : hlen + 8 ≤ mtu) (hm : mtu ≤ 65535) :
    segLen mtu hlen % 8 = 0 ∧ 8 ≤ segLen mtu hlen ∧ segLen mtu hlen + hlen ≤ mtu := by
  unfold segLen
  have e : (((mtu : Int) - hlen) % 65536).toNat = mtu - hlen := by
    rw [Int.emod_eq_of_lt (by omega) (by omega)]; omega
  rw [e]
  omega

theorem setMf_spec {f : Nat} : offOf (setMf f) = offOf f ∧ mfOf (setMf f) = true ∧ highOf (setMf f) = highOf f := by
  unfold setMf
  split
  · next h => exact ⟨rfl, by simpa [mfOf] using h, rfl⟩
  · next h =>
    unfold offOf mfOf highOf
    refine ⟨by omega, by simp; omega, by omega⟩

/-- Adding to the offset without overflow changes only the offset. -/
theorem field_add {f n : Nat} (h : offOf f + n ≤ 8191) (hf : f < 65536) :
    offOf ((f + n) % 65536) = offOf f + n ∧ mfOf ((f + n) % 65536) = mfOf f ∧ highOf ((f + n) % 65536) = highOf f := by
  unfold offOf at h ⊢
  unfold mfOf highOf
  have : (f + n) % 65536 = f + n := Nat.mod_eq_of_lt (by omega)
  rw [this]
  refine ⟨by omega, ?_, by omega⟩
  have : (f + n) / 8192 = f / 8192 := by omega
  rw [this]

theorem fragLoop_spec (mtu frag : Nat) (fopts : List UInt8) (hm : mtu ≤ 65535) (hf : 20 + fopts.length + 8 ≤ mtu)
    (hfrag : frag < 65536) : ∀ (pl : List UInt8) (opts : List UInt8) (pos : Nat), pl ≠ [] → pos % 8 = 0 →
    20 + opts.length + 8 ≤ mtu → (offOf frag + pos / 8) * 8 + pl.length ≤ 65535 →
    ∃ f fs, fragLoop mtu frag fopts opts pos pl = some (f :: fs) ∧ f.opts = opts ∧ (∀ g ∈ fs, g.opts = fopts) ∧
      (∀ g ∈ f :: fs, g.len ≤ mtu) ∧ Cut (mfOf frag) (highOf frag) (offOf frag + pos / 8) pl (f :: fs) := by
  intro pl
  induction hn : pl.length using Nat.strongRecOn generalizing pl with
  | _ n ih =>
    intro opts pos hne hpos hopts hoff
    subst hn
    have hp := List.length_pos_iff.2 hne
    obtain ⟨s1, s2, s3⟩ := segLen_spec hopts hm
    have hfl : ¬ min (segLen mtu (20 + opts.length)) pl.length = 0 := by omega
    have hfield := field_add (f := frag) (n := pos / 8) (by unfold offOf at *; omega) hfrag
    unfold fragLoop
    rw [dif_neg hne]
    simp only
    rw [dif_neg hfl]
    by_cases hlast : pl.length ≤ segLen mtu (20 + opts.length)
    · have hmin : min (segLen mtu (20 + opts.length)) pl.length = pl.length := by omega
      rw [hmin, List.drop_length, List.take_length]
      have h0 : fragLoop mtu frag fopts fopts (pos + pl.length) [] = some [] := by unfold fragLoop; rw [dif_pos rfl]
      rw [h0]
      simp only [Nat.lt_irrefl, if_false]
      refine ⟨_, [], rfl, rfl, by simp, ?_, ?_⟩
      · intro g hg
        simp only [List.mem_singleton] at hg
        subst hg
        show 20 + opts.length + pl.length ≤ mtu
        omega
      · exact ⟨hfield.1, hfield.2.1, hfield.2.2, rfl, hne⟩
    · have hmin : min (segLen mtu (20 + opts.length)) pl.length = segLen mtu (20 + opts.length) := by omega
      rw [hmin]
      generalize hseg : segLen mtu (20 + opts.length) = seg at *
      have hdl : (pl.drop seg).length = pl.length - seg := List.length_drop
      obtain ⟨g, gs, e, e1, e2, e3, e4⟩ := ih (pl.drop seg).length (by omega) (pl.drop seg) rfl fopts (pos + seg)
        (by apply List.ne_nil_of_length_pos; omega) (by omega) hf (by rw [hdl]; omega)
      rw [e]
      simp only
      rw [if_pos (by omega)]
      obtain ⟨m1, m2, m3⟩ := setMf_spec (f := (frag + pos / 8) % 65536)
      refine ⟨_, g :: gs, rfl, rfl, ?_, ?_, ?_⟩
      · intro x hx
        rcases List.mem_cons.1 hx with rfl | hx
        · exact e1
        · exact e2 x hx
      · intro x hx
        rcases List.mem_cons.1 hx with rfl | hx
        · show 20 + opts.length + (pl.take seg).length ≤ mtu
          rw [List.length_take]; omega
        · exact e3 x hx
      · have hld : (pl.take seg).length = seg := by rw [List.length_take]; omega
        refine ⟨m1.trans hfield.1, m2, m3.trans hfield.2.2, ?_, ?_, pl.drop seg, (List.take_append_drop _ _).symm, ?_⟩
        · show (pl.take seg).length % 8 = 0
          rw [hld]; exact s1
        · apply List.ne_nil_of_length_pos
          show 0 < (pl.take seg).length
          omega
        · show Cut _ _ (offOf frag + pos / 8 + (pl.take seg).length / 8) _ _
          rw [hld]
          have : offOf frag + pos / 8 + seg / 8 = offOf frag + (pos + seg) / 8 := by omega
          rw [this]
          exact e4

/-- **C22 (and C24 where it holds).** For every payload, every header with well-formed options (up to 40 bytes, end-of-list
padding), every MTU from header + 8 up, every offset field with which the packet is a legal part of a datagram: the
packet is cut into fragments none longer than the MTU, that are consecutive pieces of the payload with the right offsets
and flags (MF on all but the last, which keeps the packet's own flag); the first carries all options, the others exactly
those with the copied flag (padded with zeros to a multiple of four). -/
theorem fragmentation_faithful (mtu : Nat) (os : List IpOpt) (z : Nat) (frag : Nat) (pl : List UInt8)
    (hos : ∀ o ∈ os, o.ok) (h4 : (encAll os ++ List.replicate z 0).length % 4 = 0)
    (hmtu : 20 + (encAll os ++ List.replicate z 0).length + 8 ≤ mtu) (hm : mtu ≤ 65535)
    (hpl : pl ≠ []) (hfrag : frag < 65536) (hoff : offOf frag * 8 + pl.length ≤ 65535) :
    ∃ f fs, fragment mtu (encAll os ++ List.replicate z 0) frag pl = some (f :: fs) ∧
      f.opts = encAll os ++ List.replicate z 0 ∧
      (∀ g ∈ fs, ∃ n < 4, g.opts = encAll (os.filter IpOpt.copied) ++ List.replicate n 0 ∧ g.opts.length % 4 = 0 ∧
        g.opts.length ≤ f.opts.length) ∧
      (∀ g ∈ f :: fs, g.len ≤ mtu) ∧ Cut (mfOf frag) (highOf frag) (offOf frag) pl (f :: fs) := by
  have ho := optLoop_enc (pl.head?.getD 0) z os hos
  have hlen := optLoop_length _ _ _ ho
  obtain ⟨p1, p2⟩ := padTo4_length (encAll (os.filter IpOpt.copied))
  have hle : (padTo4 (encAll (os.filter IpOpt.copied))).length ≤ (encAll os ++ List.replicate z 0).length := by omega
  obtain ⟨f, fs, e, e1, e2, e3, e4⟩ := fragLoop_spec mtu frag (padTo4 (encAll (os.filter IpOpt.copied))) hm (by omega)
    hfrag pl _ 0 hpl rfl hmtu (by omega)
  refine ⟨f, fs, ?_, e1, ?_, e3, by simpa using e4⟩
  · unfold fragment
    rw [ho]
    exact e
  · intro g hg
    refine ⟨(4 - (encAll (os.filter IpOpt.copied)).length % 4) % 4, by omega, ?_, ?_, ?_⟩
    · rw [e2 g hg]; rfl
    · rw [e2 g hg]; exact p1
    · rw [e2 g hg, e1]; exact hle

/-- What `Cut` implies: the payloads concatenate to the original. -/
theorem cut_concat {mf : Bool} {h : Nat} : ∀ {fs : List Fragment} {off : Nat} {pl : List UInt8}, Cut mf h off pl fs →
    fs.flatMap (·.data) = pl := by
  intro fs
  induction fs with
  | nil => intro off pl h; exact absurd h (by simp [Cut])
  | cons f fs ih =>
    intro off pl hc
    cases fs with
    | nil => obtain ⟨_, _, _, h, _⟩ := hc; simp [h]
    | cons g fs =>
      obtain ⟨_, _, _, _, _, pl', h, hc⟩ := hc
      rw [List.flatMap_cons, ih hc, h]

-- Non-vacuity: 30 bytes over an MTU of 44 with a copied (0x83) and an uncopied (7) option.
def demoOpts : List IpOpt := [.opt 0x83 [4, 1, 2, 3, 4], .nop, .opt 7 [4]]
example : (∀ o ∈ demoOpts, o.ok) ∧ (encAll demoOpts ++ List.replicate 1 0).length = 12 := by
  refine ⟨?_, by decide⟩
  intro o ho
  simp only [demoOpts, List.mem_cons, List.not_mem_nil, or_false] at ho
  rcases ho with rfl | rfl | rfl
  · exact ⟨by decide, by decide, by decide⟩
  · trivial
  · exact ⟨by decide, by decide, by decide⟩
example : (fragment 44 (encAll demoOpts ++ [0]) 0 ((List.range 30).map UInt8.ofNat)).map
    (fun l => l.map (fun f => (f.opts.length, f.field, f.data.length))) =
    some [(12, 8192, 8), (8, 8193, 16), (8, 3, 6)] := by decide +kernel

/-! ## C24 -/

/-- **C24, what is true.** If no option has a zero length byte (the option loop ends) and the MTU leaves room for at
least 8 bytes after the header, fragmentation terminates, whatever else the option bytes are. -/
theorem fragmentation_terminates_partial (mtu : Nat) (opts : List UInt8) (frag : Nat) (pl : List UInt8)
    (h4 : opts.length % 4 = 0) (hopt : (optLoop (pl.head?.getD 0) opts).isSome)
    (hmtu : 20 + opts.length + 8 ≤ mtu) (hm : mtu ≤ 65535) : (fragment mtu opts frag pl).isSome := by
  obtain ⟨fo, ho⟩ := Option.isSome_iff_exists.1 hopt
  have hlen := optLoop_length _ _ _ ho
  obtain ⟨p1, p2⟩ := padTo4_length fo
  unfold fragment
  rw [ho]
  have main : ∀ (pl opts : List UInt8) (pos : Nat), 20 + opts.length + 8 ≤ mtu →
      (fragLoop mtu frag (padTo4 fo) opts pos pl).isSome := by
    intro pl
    induction hn : pl.length using Nat.strongRecOn generalizing pl with
    | _ n ih =>
      intro opts pos ho
      subst hn
      unfold fragLoop
      by_cases hne : pl = []
      · rw [dif_pos hne]; rfl
      · have hp := List.length_pos_iff.2 hne
        obtain ⟨_, s2, _⟩ := segLen_spec ho hm
        rw [dif_neg hne]
        simp only
        rw [dif_neg (by omega)]
        have := ih (pl.drop (min (segLen mtu (20 + opts.length)) pl.length)).length (by rw [List.length_drop]; omega) _ rfl
          (padTo4 fo) (pos + min (segLen mtu (20 + opts.length)) pl.length) (by omega)
        obtain ⟨r, hr⟩ := Option.isSome_iff_exists.1 this
        rw [hr]
        rfl
  exact main pl opts 0 hmtu

/-- The option loop ends on every well-formed option area. -/
theorem options_terminate (after : UInt8) (os : List IpOpt) (z : Nat) (hos : ∀ o ∈ os, o.ok) :
    (optLoop after (encAll os ++ List.replicate z 0)).isSome := by
  rw [optLoop_enc after z os hos]; rfl

/-- **C24 is violated by options.** An option with length byte 0 makes the loop run for ever, for every MTU and
payload. -/
theorem fragmentation_terminates_violated (mtu frag : Nat) (pl : List UInt8) :
    fragment mtu [7, 0, 0, 0] frag pl = none := by
  have : optLoop (pl.head?.getD 0) [7, 0, 0, 0] = none := by
    unfold optLoop
    rw [if_neg (by decide)]
    rfl
  unfold fragment
  rw [this]

/-- **C24 is violated by the MTU.** An MTU less than 8 bytes above the header length makes the loop produce empty
fragments for ever, for every payload. -/
theorem fragmentation_small_mtu_violated (mtu frag : Nat) (pl : List UInt8) (hpl : pl ≠ []) (h : 20 ≤ mtu)
    (h' : mtu < 28) : fragment mtu [] frag pl = none := by
  have ho : optLoop (pl.head?.getD 0) [] = some [] := by unfold optLoop; rfl
  unfold fragment
  rw [ho]
  show fragLoop mtu frag (padTo4 []) [] 0 pl = none
  unfold fragLoop
  rw [dif_neg hpl]
  have : segLen mtu (20 + ([] : List UInt8).length) = 0 := by
    unfold segLen
    rw [Int.emod_eq_of_lt (by simp; omega) (by simp; omega)]
    simp
    omega
  simp only [this, Nat.zero_min]
  rw [dif_pos trivial]

/-- Below the header length the "fragment" is the whole packet, longer than the MTU. -/
theorem fragmentation_tiny_mtu_violated :
    ∃ (mtu : Nat) (pl : List UInt8) (f : Fragment), fragment mtu [] 0 pl = some [f] ∧ mtu < f.len :=
  ⟨10, [1], ⟨[], 0, [1]⟩, by decide +kernel, by decide⟩

/-! ## C23 -/

open Verif.Reass in
/-- The packet a receiver gets for a fragment. -/
def toPkt (k : Key) (ttl : UInt8) (junk : Fragment → UInt8) (f : Fragment) : Pkt :=
  { key := k, opts := f.opts, ttl := ttl, off := offOf f.field, mf := mfOf f.field, data := f.data, junk := junk f }

open Verif.Reass in
theorem cut_to_cutFrom {k : Key} {ttl : UInt8} {junk : Fragment → UInt8} {h : Nat} : ∀ {fs : List Fragment} {off : Nat}
    {pl : List UInt8}, Cut false h off pl fs → CutFrom k (off * 8) pl (fs.map (toPkt k ttl junk)) := by
  intro fs
  induction fs with
  | nil => intro off pl h; exact absurd h (by simp [Cut])
  | cons f fs ih =>
    intro off pl hc
    cases fs with
    | nil =>
      obtain ⟨h1, h2, _, h3, h4⟩ := hc
      refine ⟨rfl, ?_, h2, h3, h4⟩
      show offOf f.field * 8 = off * 8
      rw [h1]
    | cons g fs =>
      obtain ⟨h1, h2, _, h3, h4, pl', h5, hc⟩ := hc
      refine ⟨rfl, ?_, h2, h3, h4, pl', h5, ?_⟩
      · show offOf f.field * 8 = off * 8
        rw [h1]
      · have := ih hc
        have e : (off + f.data.length / 8) * 8 = off * 8 + f.data.length := by omega
        rw [e] at this
        exact this

open Verif.Reass in
/-- **C23.** Fragment any unfragmented packet (offset 0, MF clear) with well-formed options over any MTU that gives at
most 17 fragments (and at least 2), and deliver the fragments in any order, interleaved with other packets, to a
receiver in any reachable state without a queue for this datagram: the last fragment makes it return a datagram with
the original payload, options, TTL and length. -/
theorem fragment_reassemble (mtu : Nat) (os : List IpOpt) (z frag : Nat) (pl : List UInt8)
    (hos : ∀ o ∈ os, o.ok) (h4 : (encAll os ++ List.replicate z 0).length % 4 = 0)
    (hmtu : 20 + (encAll os ++ List.replicate z 0).length + 8 ≤ mtu) (hm : mtu ≤ 65535)
    (hlen : 20 + (encAll os ++ List.replicate z 0).length + pl.length ≤ 65535)
    (hfrag : frag < 65536) (hoff0 : offOf frag = 0) (hmf0 : mfOf frag = false) (hpl : pl ≠ [])
    (k : Key) (ttl : UInt8) (junk : Fragment → UInt8) :
    ∃ fs, fragment mtu (encAll os ++ List.replicate z 0) frag pl = some fs ∧
    ∀ (hist pre : List Op) (last : Pkt), 2 ≤ fs.length → fs.length ≤ 17 →
      (ofKey k (pkts pre) ++ [last]).Perm (fs.map (toPkt k ttl junk)) →
      NoQueue (run init hist).1 k → (∀ p ∈ pkts pre, p.room = true) →
      (run init hist).1.nipq + (pkts pre).length ≤ maxnipq → ticks pre < 15 →
      (∀ f ∈ fs, ticks pre < (junk f).toNat) →
      (reass (run (run init hist).1 pre).1 last).2 =
        .pkt ⟨k, encAll os ++ List.replicate z 0, ttl, 20 + (encAll os ++ List.replicate z 0).length + pl.length, pl⟩ := by
  obtain ⟨f, fs, e, e1, e2, e3, e4⟩ := fragmentation_faithful mtu os z frag pl hos h4 hmtu hm hpl hfrag (by omega)
  refine ⟨f :: fs, e, ?_⟩
  intro hist pre last l2 l17 hperm hnoq hroom hnip ht hjunk
  rw [hmf0, hoff0] at e4
  have hcut : CutFrom k 0 pl ((f :: fs).map (toPkt k ttl junk)) := by simpa using cut_to_cutFrom e4
  have hlroom : last.room = true := by
    obtain ⟨g, _, hg⟩ := List.mem_map.1 (hperm.subset (List.mem_append_right _ (List.mem_singleton.2 rfl)))
    rw [← hg]; rfl
  obtain ⟨_, ⟨f0, hf0, h0, h1⟩, _⟩ := reassembly_completes hist k pl _ pre last hcut (by simpa using l2) (by simpa using l17) (by
      intro p hp
      obtain ⟨g, hg, rfl⟩ := List.mem_map.1 hp
      show 20 + g.opts.length + pl.length ≤ 65535
      rcases List.mem_cons.1 hg with rfl | hg
      · rw [e1]; exact hlen
      · obtain ⟨_, _, _, _, hle⟩ := e2 g hg
        rw [e1] at hle
        omega) hperm hnoq ⟨hlroom, hroom⟩ hnip ht (by
      intro p hp
      obtain ⟨g, hg, rfl⟩ := List.mem_map.1 hp
      exact hjunk g hg)
  -- the piece with offset 0 is the first fragment
  have hff : f0 = toPkt k ttl junk f := by
    rw [List.map_cons] at hf0 hcut
    rcases List.mem_cons.1 hf0 with h | h
    · exact h
    · exfalso
      obtain ⟨F1, F2, _⟩ := cut_facts hcut
      have hb := (List.pairwise_cons.1 F2).1 f0.frag (List.mem_map_of_mem h)
      have hne := List.length_pos_iff.2 (F1 _ (List.mem_cons_self ..)).2.1
      have hb : offOf f.field * 8 + f.data.length ≤ f0.off * 8 := hb
      have hne : 0 < f.data.length := hne
      rw [h0] at hb
      omega
  rw [h1, hff]
  show Out.pkt ⟨k, f.opts, ttl, 20 + f.opts.length + pl.length, pl⟩ = _
  rw [e1]

end Verif.Frag
