import Verif.HugeCache.Seq
/-!
C19: the hugepage cache conserves hugepages under every interleaving and every kernel answer (and C13 for
whole hugepages: nothing owned is ever being returned to the kernel).
-/
namespace Verif.HugeCache
open Verif.HugeAddressMap Verif.HugeAllocator

/-- **C19, conservation.** At every point of every history, every hugepage obtained from the system is in exactly
one place: free in the allocator, cached, on its way to the kernel, or owned by a caller; `size()` is the number
of cached hugepages and `usage()` the number of owned ones but for those the regions took from the allocator. -/
theorem conservation {s : S} {ob : List Rng} {ow : PSet} {u : Nat} (h : Reach s ob ow u) :
    (∀ p, Cov ob p ↔ Cov (ranges s.alloc.free.root) p ∨ Cov (ranges s.cache.root) p ∨ Cov s.busy p ∨ ow p) ∧
    (∀ p, Cov (ranges s.alloc.free.root) p → ¬ Cov (ranges s.cache.root) p ∧ ¬ Cov s.busy p ∧ ¬ ow p) ∧
    (∀ p, Cov (ranges s.cache.root) p → ¬ Cov s.busy p ∧ ¬ ow p) ∧
    (∀ p, Cov s.busy p → ¬ ow p) ∧ Disj s.busy ∧
    s.size = lenSum (ranges s.cache.root) ∧ Sep (ranges s.cache.root) ∧
    lenSum ob = lenSum (ranges s.alloc.free.root) + s.size + lenSum s.busy + s.usage + lenSum s.taken ∧
    (∀ p, Cov s.taken p → ow p) ∧ Disj s.taken := by
  have k := h.K
  refine ⟨k.j.part, fun p hp => ?_, fun p hp => ⟨k.cb p hp, k.co p hp⟩, k.bo, k.disj, ?_, k.inv.sep, ?_, k.tsub, k.tk⟩
  · have := k.j.excl p hp
    exact ⟨fun x => this (Or.inl x), fun x => this (Or.inr (Or.inl x)), fun x => this (Or.inr (Or.inr x))⟩
  · rw [k.size, k.inv.total]
  · have h1 := k.j.sys; have h2 := k.j.use; have h3 := k.j.inv.total; have h4 := k.cnt
    omega

/-- **C13 for whole hugepages.** A hugepage owned by a caller is never being returned to the kernel, whatever
calls are waiting. -/
theorem owned_never_unbacked {s : S} {ob : List Rng} {ow : PSet} {u : Nat} (h : Reach s ob ow u) (q : Pend)
    (hq : q ∈ s.inflight) (p : Nat) (hp : q.r.Has p) : ¬ ow p :=
  h.K.bo p ⟨q.r, List.mem_map.2 ⟨q, hq, rfl⟩, hp⟩

/-- **C19, no stop.** No call that respects the rules ever stops the program, whatever the kernel answers and
whatever runs in between. -/
theorem step_defined {s : S} {ob : List Rng} {ow : PSet} {u : Nat} (h : Reach s ob ow u) (e : Ev)
    (he : e.Pre ob ow s) : ∃ s' o, step s e = some (s', o) := by
  obtain ⟨s', o, e1, _⟩ := step_spec h.K e he
  exact ⟨s', o, e1⟩

/-- **C19, get.** A request for `n` hugepages yields exactly `n`, none owned and none on its way to the kernel;
`*from_released` is false exactly when all of them come from the cache, which is exactly when a cached range was
long enough. Only a failed request yields nothing, and then nothing changed. -/
theorem get_exact {s : S} {ob : List Rng} {ow : PSet} {u : Nat} (h : Reach s ob ow u) (n : Nat) (hn : 0 < n)
    (fr : Bool) (sys : Option Rng) (hs : SysOK ob n sys) (a b : Nat) :
    ∃ s' res fr' asked, step s (.get n fr sys a b) = some (s', .got res fr' asked) ∧
      (∀ r, res = some r → r.n = n ∧ (∀ p, r.Has p → ¬ ow p ∧ ¬ Cov s.busy p) ∧
        (fr' = false ↔ ∀ p, r.Has p → Cov (ranges s.cache.root) p) ∧
        (fr' = false ↔ ∃ q ∈ ranges s.cache.root, n ≤ q.n)) ∧
      (asked = true → ∀ q ∈ ranges s.cache.root, q.n < n) ∧
      (res = none → (∀ q ∈ ranges s.cache.root, q.n < n) ∧ s' = s) := by
  obtain ⟨s', res, fr', asked, e1, _, _, e4, e5, e6, e7⟩ := get_step h.K hn fr hs a b
  exact ⟨s', res, fr', asked, e1, fun r hr => ⟨(e4 r hr).1, (e4 r hr).2.1, (e4 r hr).2.2, e7 r hr⟩, e5, e6⟩

/-- **C19, ranges taken past the cache** (the regions of the page heap do so).  They are disjoint from everything
owned, cached or on its way to the kernel, and are nobody else's from then on. -/
theorem take_exact {s : S} {ob : List Rng} {ow : PSet} {u : Nat} (h : Reach s ob ow u) (n : Nat) (hn : 0 < n)
    (sys : Option Rng) (hs : SysOK ob n sys) :
    ∃ s' res asked, step s (.take n sys) = some (s', .got res true asked) ∧ s'.taken = res.toList ++ s.taken ∧
      (∀ r, res = some r → r.n = n ∧ ∀ p, r.Has p → ¬ ow p ∧ ¬ Cov s.busy p) ∧ (res = none → s' = s) := by
  obtain ⟨s', res, asked, e1, _, _, e4, e5, e6⟩ := take_step h.K hn hs
  exact ⟨s', res, asked, e1, e4, e5, e6⟩

/-- **C19, unbacked totals.** The two totals of unbacked hugepages, plus what unfinished calls have unbacked so
far, are exactly the number of hugepages the kernel took. -/
theorem unbacked_exact {s : S} {ob : List Rng} {ow : PSet} {u : Nat} (h : Reach s ob ow u) :
    s.fast + s.periodic + pendSum s.inflight = u := by
  have := h.K.unb
  omega

/-- **C19, limit.** The cache limit never falls below ten hugepages. -/
theorem limit_ge {s : S} {ob : List Rng} {ow : PSet} {u : Nat} (h : Reach s ob ow u) : 10 ≤ s.limit :=
  h.K.lim

/-- **C19, periodic release.** `ReleaseCachedPages(n)` run to its end (other calls may be waiting, but none
moves) returns exactly the number of hugepages that left the cache; and if the kernel never refuses, at most
`size - n` stay cached. -/
theorem releaseCached_exact {s : S} {ob : List Rng} {ow : PSet} {u : Nat} (h : Reach s ob ow u) (n ms : Nat)
    (ans : List Bool) (hans : s.size + 1 ≤ ans.length) :
    ∃ s1 o s' v, step s (.releaseCached n ms) = some (s1, o) ∧ drain ans s1 o = some (s', .released v) ∧
      s'.inflight = s.inflight ∧ v + s'.size = s.size ∧ ((∀ b ∈ ans, b = true) → s'.size ≤ s.size - n) := by
  obtain ⟨s1, o, e1, e2, e3, e4⟩ := releaseCached_good (n := n) (c := ∀ b ∈ ans, b = true) h.K ms
  obtain ⟨s', v, d1, d2, d3, d4⟩ := drain_good ans s1 o u _ id e2 e3 (fun ho p hp => by have := e4 ho p hp; omega)
  exact ⟨s1, o, s', v, e1, d1, d2, d3, d4⟩

/-- **C19, release.** `Release(r)` run to its end leaves at most `limit()` hugepages cached unless the kernel
refused one, and every hugepage of `r` and the cache is either still cached or counted as unbacked. -/
theorem release_exact {s : S} {ob : List Rng} {ow : PSet} {u : Nat} (h : Reach s ob ow u) (r : Rng) (hr : 0 < r.n)
    (how : ∀ p, r.Has p → ow p) (hnt : ∀ p, r.Has p → ¬ Cov s.taken p) (el : Bool) (ms : Nat) (ans : List Bool) (hans : s.size + r.n + 1 ≤ ans.length) :
    ∃ s1 o s', step s (.release r el ms) = some (s1, o) ∧ drain ans s1 o = some (s', .ret) ∧
      s'.inflight = s.inflight ∧ (s'.fast - s.fast) + s'.size = s.size + r.n ∧ s.fast ≤ s'.fast ∧
      ((∀ b ∈ ans, b = true) → s'.size ≤ s'.limit) := by
  obtain ⟨s1, o, e1, e2, e3, e4⟩ := release_good (c := ∀ b ∈ ans, b = true) h.K hr how hnt el ms
  obtain ⟨s', d1, d2, d3, d4⟩ := drain_good' ans s1 o u _ id e2 e3 (fun ho p hp => by have := e4 ho p hp; omega)
  have h0 : s.fast ≤ s1.fast := step_fast (r := r) (el := el) (ms := ms) (o := o) e1
  have h1 : s1.fast ≤ s'.fast := drain_fast ans s1 o d1
  exact ⟨s1, o, s', e1, d1, d2, by omega, by omega, d4⟩

/-! ### Non-vacuity: obtain 12 from the system, release all (over the limit of 10), refuse once. -/

def demo1 := step S.init (.get 12 false (some ⟨64, 12⟩) 0 0)
def demo2 := demo1.bind fun x => step x.1 (.release ⟨64, 12⟩ false 0)
def demo3 := demo2.bind fun x => step x.1 (.answer 0 true)

example : demo1.map (fun x => (x.2, x.1.usage)) = some (.got (some ⟨64, 12⟩) true true, 12) := by decide +kernel
example : demo2.map (fun x => (x.2, x.1.size, x.1.busy)) = some (.waiting, 10, [⟨64, 2⟩]) := by decide +kernel
example : demo3.map (fun x => (x.2, x.1.size, x.1.fast, ranges x.1.cache.root)) =
    some (.ret, 10, 2, [⟨66, 10⟩]) := by decide +kernel

example : ∃ s ob ow u, Reach s ob ow u ∧ s.inflight.length = 1 ∧ s.size = 10 := by
  have hx : demo2.map (fun x => (x.1.inflight.length, x.1.size)) = some (1, 10) := by decide +kernel
  cases h1 : demo1 with
  | none => simp [demo2, h1] at hx
  | some x =>
    obtain ⟨s1, o1⟩ := x
    have r1 := Reach.step (.get 12 false (some ⟨64, 12⟩) 0 0) Reach.init ⟨by omega, by
      intro r e
      simp only [Option.some.injEq] at e
      subst e
      exact ⟨by decide, by decide, fun p _ hc => by simp [Cov] at hc⟩⟩ h1
    have ho : o1 = .got (some ⟨64, 12⟩) true true := by
      have : demo1.map (fun x => x.2) = some (.got (some ⟨64, 12⟩) true true) := by decide +kernel
      rw [h1] at this
      simpa using this
    subst ho
    cases h2 : step s1 (.release ⟨64, 12⟩ false 0) with
    | none => simp [demo2, h1, h2] at hx
    | some y =>
      obtain ⟨s2, o2⟩ := y
      simp only [demo2, h1, Option.bind_some, h2, Option.map_some, Option.some.injEq, Prod.mk.injEq] at hx
      exact ⟨s2, _, _, _, Reach.step (.release ⟨64, 12⟩ false 0) r1 ⟨by decide, fun p hp => Or.inr hp, fun p _ hc => by
        have ht : s1.taken = [] := by
          have : demo1.map (fun x => x.1.taken) = some [] := by decide +kernel
          rw [h1] at this
          simpa using this
        simp [ht, Cov] at hc⟩ h2, hx.1, hx.2⟩

end Verif.HugeCache
