import Verif.Mcast.Thm5

/-!
# Room in the record; histories the account covers
-/

namespace Verif.Mcast

open Spec (M)

/-- A socket that excludes source 5 and one that asks for it: the history is one of those the
theorems about the interface speak of. -/
def mixed : List (Env × Op) := ops [.join 1 (some 3) 900 none, .block 1 none 900 5 true, .join 2 (some 3) 900 (some 5)]

theorem mixed_plain : Plain mixed := by
  refine ⟨?_, ?_, ?_, ?_⟩
  · intro p hp
    simp only [mixed, ops, List.map_cons, List.map_nil, List.mem_cons, List.not_mem_nil, or_false] at hp
    rcases hp with rfl | rfl | rfl <;> trivial
  · intro p hp i hc
    simp only [mixed, ops, List.map_cons, List.map_nil, List.mem_cons, List.not_mem_nil, or_false] at hp
    rcases hp with rfl | rfl | rfl <;> cases hc
  · intro p hp
    simp only [mixed, ops, List.map_cons, List.map_nil, List.mem_cons, List.not_mem_nil, or_false] at hp
    rcases hp with rfl | rfl | rfl <;> rfl
  · have h3 : members mixed = [⟨1, 3, 900, true, fun b => if b = 5 then true else false⟩, ⟨2, 3, 900, false, fun b => decide (b = 5)⟩] := rfl
    have h2 : members (ops [.join 1 (some 3) 900 none, .block 1 none 900 5 true]) = [⟨1, 3, 900, true, fun b => if b = 5 then true else false⟩] := rfl
    have h1 : members (ops [.join 1 (some 3) 900 none]) = [⟨1, 3, 900, true, fun b => false⟩] := rfl
    intro a b hab m hm he
    have ha : a = mixed.take a.length := by rw [hab, List.take_left']; rfl
    generalize a.length = n at ha
    subst ha
    match n with
    | 0 => cases hm
    | 1 =>
      rw [show mixed.take 1 = ops [.join 1 (some 3) 900 none] from rfl, h1, List.mem_singleton] at hm
      subst hm; cases he
    | 2 =>
      rw [show mixed.take 2 = ops [.join 1 (some 3) 900 none, .block 1 none 900 5 true] from rfl, h2, List.mem_singleton] at hm
      subst hm; cases he
    | n + 3 =>
      rw [List.take_of_length_le (by show 3 ≤ n + 3; omega), h3, List.mem_cons, List.mem_singleton] at hm
      rcases hm with rfl | rfl
      · cases he
      · exact ⟨5, rfl⟩

/-- Source 5 is announced as not wanted though socket 2 asked for it by name; sources nobody spoke
of are announced as wanted, which socket 1 does want. -/
example : (record (run init mixed) 3 900).map (fun r => (announced r 5, announced r 6)) = some (false, true) := by decide +kernel

example : (membersAt mixed 3 900).length < 65536 := by
  refine Nat.lt_of_le_of_lt (List.length_filter_le _ _) ?_
  show 2 < 65536
  decide

/-! ## Room -/

/-- How many sources a call names. -/
def size : Op → Nat
  | .join _ _ _ (some _) => 1
  | .block _ _ _ _ true => 1
  | .set _ _ _ _ l => l.length
  | _ => 0

theorem mergeOne_len {maxg : Nat} {ns : List Node} {s : Src} (h : ns.length < maxg) :
    ∃ ns', mergeOne maxg (fun _ => false) ns s = some ns' ∧ ns'.length ≤ ns.length + 1 := by
  unfold mergeOne
  split
  · exact ⟨_, rfl, by rw [List.length_map]; omega⟩
  · rw [if_neg (by simp; omega)]
    exact ⟨_, rfl, by rw [List.length_cons]⟩

theorem mergeSrcs_room {maxg : Nat} : ∀ (l : List Src) (ns : List Node), ns.length + l.length ≤ maxg → mergeSrcs maxg (fun _ => false) ns l ≠ none := by
  intro l
  induction l with
  | nil => intro ns _ h; cases h
  | cons s l ih =>
    intro ns hlen
    rw [List.length_cons] at hlen
    unfold mergeSrcs
    split
    · exact ih ns (by omega)
    · obtain ⟨ns', h1, h2⟩ := mergeOne_len (s := s) (show ns.length < maxg by omega)
      rw [h1]
      exact ih ns' (by omega)

theorem mergeAt_room {w : St} {e : Env} {k g : Nat} {f : Filt} (hm : ∀ a, e.noMemG a = false) (hex : ∃ r ∈ w.grps, r.ifp = k ∧ r.grp = g)
    (hroom : ∀ r ∈ w.grps, r.srcs.length + f.src.length ≤ w.maxg) : mergeAt w e k g f ≠ none := by
  have hnm : e.noMemG = fun _ => false := funext hm
  unfold mergeAt
  split
  · rename_i hn
    obtain ⟨r, hr, hk⟩ := hex
    rw [List.find?_eq_none] at hn
    exact absurd (by simpa using hk) (hn r hr)
  · rename_i r hr
    have hrm := List.mem_of_find?_eq_some hr
    have : inmMerge w.maxg e.noMemG r f ≠ none := by
      unfold inmMerge
      rw [hnm]
      split
      · rename_i hq
        exact absurd hq (mergeSrcs_room _ _ (hroom r hrm))
      · intro h; cases h
    split
    · contradiction
    · intro h; cases h

theorem load_len (maxs : Nat) (nm : Bool) : ∀ (l : List (Option Nat)) (f : Filt), (imfLoad maxs nm f l).1.src.length ≤ f.src.length + l.length := by
  intro l
  induction l with
  | nil => intro f; exact Nat.le_refl _
  | cons o l ih =>
    intro f
    cases o with
    | none => exact Nat.le_add_right ..
    | some a =>
      unfold imfLoad
      cases h : imfGetSource maxs nm f a with
      | error e => exact Nat.le_add_right ..
      | ok f' =>
        dsimp only
        have h1 := ih f'
        have h2 : f'.src.length ≤ f.src.length + 1 := by
          unfold imfGetSource at h
          split at h
          · injection h with h; subst h; dsimp only; rw [List.length_map]; omega
          · split at h
            · cases h
            · split at h
              · cases h
              · injection h with h; subst h; dsimp only; rw [List.length_cons]
        rw [List.length_cons]
        omega

theorem ent_record {lk : Nat → Nat → Nat} {w : St} (hr : Refs lk w) {x : Ent} (hx : x ∈ w.mem) : ∃ r ∈ w.grps, r.ifp = x.ifp ∧ r.grp = x.grp := by
  have : 0 < cnt w.mem x.ifp x.grp := List.countP_pos_iff.mpr ⟨x, hx, by simp⟩
  obtain ⟨p, hp, hpa⟩ := hr.refs.ex x.ifp x.grp (by unfold plus; omega)
  obtain ⟨r, hr, rfl⟩ := List.mem_map.mp hp
  exact ⟨r, hr, hpa⟩

theorem step_room {lk : Nat → Nat → Nat} {w : St} (hr : Refs lk w) (e : Env) (o : Op) (hm : ∀ a, e.noMemG a = false)
    (h1 : ∀ r ∈ w.grps, r.srcs.length + size o ≤ w.maxg) (h0 : size o ≤ w.maxg)
    (h2 : ∀ r ∈ w.grps, ∀ x ∈ w.mem, r.srcs.length + x.f.src.length + size o ≤ w.maxg) : (step w e o).2 ≠ .fault := by
  have no : ∀ c : Err, Res.ret c ≠ .fault := fun c h => (by cases h)
  have nh : Res.hang ≠ .fault := fun h => (by cases h)
  cases o with
  | close i => exact no _
  | igmp k g op => unfold step; dsimp only; split; exact nh; exact no _
  | join i ifp g src =>
    unfold step join
    dsimp only
    cases ifp with
    | none => exact no _
    | some k =>
      dsimp only
      match hmg : matchGroup w i (some k) g with
      | some x =>
        obtain ⟨hx, _, hxk, hxg⟩ := match_mem hmg
        have hxk : x.ifp = k := by
          rcases hxk with q | q
          · cases q
          · injection q with q; exact q.symm
        cases src with
        | none => exact no _
        | some a =>
          dsimp only
          have hex := ent_record hr hx
          rw [hxk, hxg] at hex
          have hq := mergeAt_room (f := imfGraft x.f .incl a) hm hex (fun r hrm => by
            have := h2 r hrm x hx
            show r.srcs.length + (_ :: _ : List Src).length ≤ _
            rw [List.length_cons]
            simp only [size] at this
            omega)
          split
          · exact no _
          · split
            · exact no _
            · split
              · exact no _
              · split
                · exact nh
                · match hme : mergeAt w e k g (imfGraft x.f .incl a) with
                  | none => exact absurd hme hq
                  | some gs => dsimp only; split <;> exact no _
      | none =>
        dsimp only
        have hq : mergeAt { w with grps := getMulti w.grps k g } e k g (newFilt src) ≠ none := by
          refine mergeAt_room hm ?_ ?_
          · have := (rinv_get hr.refs k g).ex k g (by unfold up; rw [if_pos ⟨rfl, rfl⟩]; omega)
            rw [← getMulti_proj] at this
            obtain ⟨p, hp, hpa⟩ := this
            obtain ⟨r, hr, rfl⟩ := List.mem_map.mp hp
            exact ⟨r, hr, hpa⟩
          · intro r hrm
            have hlen : (newFilt src).src.length = size (.join i (some k) g src) := by cases src <;> rfl
            rw [hlen]
            unfold getMulti at hrm
            dsimp only at hrm
            split at hrm
            · obtain ⟨y, hy, rfl⟩ := List.mem_map.mp hrm
              have := h1 y hy
              split <;> exact this
            · rcases List.mem_cons.mp hrm with rfl | hrm
              · show 0 + _ ≤ _; rw [Nat.zero_add]; exact h0
              · exact h1 r hrm
        split
        · exact no _
        · split
          · exact no _
          · split
            · exact nh
            · match hme : mergeAt { w with grps := getMulti w.grps k g } e k g (newFilt src) with
              | none => exact absurd hme hq
              | some gs => dsimp only; split <;> exact no _
  | leave i ifp g src =>
    unfold step leave
    dsimp only
    match hmg : matchGroup w i ifp g with
    | none => exact no _
    | some x =>
      obtain ⟨hx, _, _, hxg⟩ := match_mem hmg
      have hex := ent_record hr hx
      rw [hxg] at hex
      have hq : ∀ F : Src → Src, ∀ st1, mergeAt w e x.ifp g { x.f with src := x.f.src.map F, st1 := st1 } ≠ none := fun F st1 => mergeAt_room hm hex (fun r hrm => by
        have := h2 r hrm x hx
        show r.srcs.length + (List.map F _).length ≤ _
        rw [List.length_map]
        omega)
      cases src with
      | none =>
        dsimp only
        split
        · exact nh
        · match hme : mergeAt w e x.ifp g (imfLeave x.f) with
          | none => exact absurd hme (hq _ _)
          | some gs => exact no _
      | some a =>
        dsimp only
        split
        · exact no _
        · split
          · exact no _
          · split
            · exact nh
            · match hme : mergeAt w e x.ifp g (imfPrune x.f a) with
              | none => exact absurd hme (hq _ _)
              | some gs => dsimp only; split <;> exact no _
  | block i ifp g a b =>
    unfold step block
    dsimp only
    match hmg : matchGroup w i ifp g with
    | none => exact no _
    | some x =>
      obtain ⟨hx, _, _, hxg⟩ := match_mem hmg
      have hex := ent_record hr hx
      rw [hxg] at hex
      dsimp only
      split
      · exact no _
      · split
        · exact no _
        · split
          · exact no _
          · split
            · exact nh
            · have hq : mergeAt w e x.ifp g (if b = true then imfGraft x.f .excl a else imfPrune x.f a) ≠ none := by
                refine mergeAt_room hm hex (fun r hrm => ?_)
                have := h2 r hrm x hx
                cases b with
                | true =>
                  show r.srcs.length + (_ :: _ : List Src).length ≤ _
                  rw [List.length_cons]
                  simp only [size] at this
                  omega
                | false =>
                  show r.srcs.length + (List.map _ _).length ≤ _
                  rw [List.length_map]
                  omega
              match hme : mergeAt w e x.ifp g (if b = true then imfGraft x.f .excl a else imfPrune x.f a) with
              | none => exact absurd hme hq
              | some gs => dsimp only; split <;> exact no _
  | set i ifp g m srcs =>
    unfold step setSources
    dsimp only
    split
    · exact no _
    · cases ifp with
      | none => exact no _
      | some k =>
        dsimp only
        match hmg : matchGroup w i (some k) g with
        | none => exact no _
        | some x =>
          obtain ⟨hx, _, hxk, hxg⟩ := match_mem hmg
          have hxk : x.ifp = k := by
            rcases hxk with q | q
            · cases q
            · injection q with q; exact q.symm
          have hex := ent_record hr hx
          rw [hxk, hxg] at hex
          dsimp only
          generalize (if m = true then Mode.excl else Mode.incl) = md
          have hlen : (if srcs = [] then (({ x.f with st1 := md } : Filt), Err.ok) else
              imfLoad w.maxs e.noMem { imfLeave { x.f with st1 := md } with st1 := md } srcs).1.src.length ≤ x.f.src.length + srcs.length := by
            split
            · exact Nat.le_add_right ..
            · have := load_len w.maxs e.noMem srcs { imfLeave { x.f with st1 := md } with st1 := md }
              have hl : ({ imfLeave { x.f with st1 := md } with st1 := md } : Filt).src.length = x.f.src.length := List.length_map ..
              omega
          generalize (if srcs = [] then (({ x.f with st1 := md } : Filt), Err.ok) else _) = p at hlen ⊢
          split
          · exact no _
          · split
            · exact nh
            · have hq : mergeAt w e k g p.1 ≠ none := mergeAt_room hm hex (fun r hrm => by
                have := h2 r hrm x hx
                simp only [size] at this
                omega)
              match hme : mergeAt w e k g p.1 with
              | none => exact absurd hme hq
              | some gs => dsimp only; split <;> exact no _

theorem step_maxg (w : St) (e : Env) (o : Op) : (step w e o).1.maxg = w.maxg := by
  cases o <;> simp only [step]
  · unfold join
    repeat' (first | rfl | split | dsimp only)
  · unfold leave
    repeat' (first | rfl | split | dsimp only)
  · unfold block
    repeat' (first | rfl | split | dsimp only)
  · unfold setSources
    repeat' (first | rfl | split | dsimp only)
  · rfl
  · split <;> rfl

/-- **C150, in part.**  Whatever was called before (closes and errors of IGMP included): as long as
the group records have room for the sources of the call and of any one filter, and there is memory,
no call follows a bad pointer. -/
theorem no_fault_partial (h : List (Env × Op)) (e : Env) (o : Op) (hm : ∀ a, e.noMemG a = false) (h0 : size o ≤ 512)
    (h1 : ∀ r ∈ (run init h).grps, r.srcs.length + size o ≤ 512)
    (h2 : ∀ r ∈ (run init h).grps, ∀ x ∈ (run init h).mem, r.srcs.length + x.f.src.length + size o ≤ 512) :
    (step (run init h) e o).2 ≠ .fault := by
  obtain ⟨lk, hr, _⟩ := run_refs_any h init _ init_refs
  have hg : ∀ (h : List (Env × Op)) (w : St), (run w h).maxg = w.maxg := by
    intro h
    induction h with
    | nil => intro w; rfl
    | cons p h ih => intro w; exact (ih _).trans (step_maxg w p.1 p.2)
  have hg : (run init h).maxg = 512 := hg h init
  exact step_room hr e o hm (by rw [hg]; exact h1) (by rw [hg]; exact h0) (by rw [hg]; exact h2)

example : let w := run init mixed
    (∀ r ∈ w.grps, r.srcs.length + size (.set 1 (some 3) 900 true ((List.range 128).map some)) ≤ 512) ∧
    (∀ r ∈ w.grps, ∀ x ∈ w.mem, r.srcs.length + x.f.src.length + size (.set 1 (some 3) 900 true ((List.range 128).map some)) ≤ 512) := by
  decide +kernel

end Verif.Mcast
