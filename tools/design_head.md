# Design: a Lean 4 model of OpenFastPath (ofp) and its properties

## 1. Method

`/repo` is read as text. Each C function in scope becomes a total Lean function (or a
`step : State → Op → State × Out`) with a comment citing the file and lines it models.
Properties are stated against small separate specifications (`*/Spec.lean`, or the "Specification"
section of a module) and proved in `*/Props.lean` and its siblings; helper lemmas live in `*/Lemmas.lean`.
Where the C code has undefined behaviour or loops forever, the model has a distinct outcome (`ub`,
`diverge`, `oob`, `none`, ...) instead of a made-up value.  If the code violates a property we do not
repair the model: we prove the negation on a concrete witness (theorem names ending in `_violated`),
and prove the strongest true restriction (suffix `_partial`).

Concrete witnesses and the non-vacuity examples are evaluated by the kernel (`decide +kernel`, `rfl`);
everything quantified is proved by induction, invariants or refinement, without bounds.

## 2. Trusted base

* Lean 4.33.0's kernel; axioms `propext`, `Classical.choice`, `Quot.sound` at most (section 6).
* The reading of the C code: every definition cites its source.  Nothing is extracted or executed.
* Common modelling conventions
  * Host is little-endian, `int` is 32 bits, pointers 64 bits (x86-64/aarch64, the supported targets).
  * Locks: each section of an API function that runs entirely under a lock is one atomic step.  Code that
    runs outside a lock is modelled sequentially, or, where the property is about races (ARP/routes), split
    into the steps between which other threads can run; the races hidden otherwise are listed in section 4.
  * ODP (packet allocation, pools, timers) is external: it appears as a parameter, an oracle or an abstract
    list of bytes / free list whose assumed behaviour is stated in the model's comment.
  * Pointer structures (lists, trees) are inductive values unless aliasing matters (mtrie, IPsec policies,
    ARP entries, memory zones), where an explicit index-based memory is used.
