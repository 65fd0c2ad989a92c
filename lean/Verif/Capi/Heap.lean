/- C128: the memory the C interface hands out. -/
import Verif.Capi.HeapModel
import Mathlib.Data.List.Perm.Basic
import Mathlib.Data.List.Nodup

namespace Zune.Capi

/-! ### Specification -/

/-- A heap as `malloc` and `free` keep it: no address twice, none null, none from the future, and nothing in memory that was never handed out. -/
structure Heap.Good (h : Heap) : Prop where
  start : 0 < h.next
  live : ∀ a ∈ h.live, 0 < a ∧ a < h.next
  nodup : h.live.Nodup
  fresh : ∀ p, h.next ≤ p → h.status p = none ∧ h.image p = false

/-- At `p` there is a status with the code `c`, whose message is memory of its own. -/
structure Holds (h : Heap) (p m : Nat) (c : Code) : Prop where
  there : h.status p = some ⟨c, m⟩
  object : p ∈ h.live
  message : m ∈ h.live
  apart : p ≠ m

/-! ### Lemmas -/

theorem free_ok {p : Nat} {h : Heap} (hg : h.Good) (hp : p ∈ h.live) : free p h = .ok { h with live := h.live.erase p } := by
  have := (hg.live p hp).1
  unfold free
  rw [if_neg (by omega), if_pos hp]

theorem erase_good {h : Heap} (hg : h.Good) (p : Nat) : Heap.Good { h with live := h.live.erase p } :=
  ⟨hg.start, fun a ha => hg.live a (List.mem_of_mem_erase ha), hg.nodup.erase p, hg.fresh⟩

theorem malloc_good {h : Heap} (hg : h.Good) :
    malloc true h = (h.next, { h with live := h.next :: h.live, next := h.next + 1 }) ∧ Heap.Good { h with live := h.next :: h.live, next := h.next + 1 } := by
  refine ⟨rfl, by simp, ?_, ?_, fun p hp => hg.fresh p (by simp only at hp; omega)⟩
  · intro a ha
    rcases List.mem_cons.1 ha with rfl | ha
    · exact ⟨hg.start, by simp⟩
    · have := hg.live a ha
      simp only
      omega
  · exact List.nodup_cons.2 ⟨fun hc => by have := hg.live _ hc; omega, hg.nodup⟩

/-! ### Theorems -/

/-- **C128** (`zil_status_new`). With enough memory there is a new status, which says that all is well. -/
theorem c128_status_new (h : Heap) (hg : h.Good) :
    ∃ p m g, statusNew true true h = (p, g) ∧ g.Good ∧ Holds g p m .ok ∧ p ∉ h.live ∧ m ∉ h.live ∧ g.live = m :: p :: h.live ∧
      statusOk p g = .ok true ∧ ∀ q, q ≠ p → g.status q = h.status q := by
  have hs := hg.start
  obtain ⟨e1, g1⟩ := malloc_good hg
  obtain ⟨e2, g2⟩ := malloc_good g1
  have hp : h.next ∉ h.live := fun hc => by have := hg.live _ hc; omega
  have hm : h.next + 1 ∉ h.live := fun hc => by have := hg.live _ hc; omega
  refine ⟨h.next, h.next + 1, ⟨(h.next + 1) :: h.next :: h.live, h.next + 1 + 1,
    fun q => if q = h.next then some ⟨.ok, h.next + 1⟩ else h.status q, h.image⟩, ?_, ?_, ?_, hp, hm, rfl, ?_, ?_⟩
  · unfold statusNew
    rw [e1]
    simp only [e2]
    rw [if_neg (by omega), if_pos (by omega)]
  · refine ⟨g2.start, g2.live, g2.nodup, fun p hp => ⟨?_, (g2.fresh p hp).2⟩⟩
    show (if p = h.next then _ else _) = none
    have hp : h.next + 1 + 1 ≤ p := hp
    rw [if_neg (by omega)]
    exact (g2.fresh p hp).1
  · exact ⟨if_pos rfl, by simp, by simp, by omega⟩
  · unfold statusOk
    rw [if_neg (by omega)]
    simp
  · intro q hq
    exact if_neg hq

/-- A heap to start with. -/
def emptyHeap : Heap := ⟨[], 1, fun _ => none, fun _ => false⟩

theorem emptyHeap_good : emptyHeap.Good := ⟨by decide, by simp [emptyHeap], by simp [emptyHeap], fun _ _ => ⟨rfl, rfl⟩⟩

/-- A heap with a status. -/
def exHeap : Heap := (statusNew true true emptyHeap).2

theorem exHeap_good : exHeap.Good ∧ Holds exHeap 1 2 .ok := by
  obtain ⟨p, m, g, e, hg, hh, -, -, hl, -⟩ := c128_status_new emptyHeap emptyHeap_good
  have h1 : exHeap = g := by unfold exHeap; rw [e]
  have e1 : exHeap.live = [2, 1] := by decide +kernel
  have e2 : exHeap.status 1 = some ⟨.ok, 2⟩ := by decide +kernel
  exact ⟨h1 ▸ hg, e2, by rw [e1]; simp, by rw [e1]; simp, by decide⟩

example : emptyHeap.Good ∧ (statusNew true true emptyHeap).1 = 1 ∧ (statusNew true true emptyHeap).2.live = [2, 1] :=
  ⟨emptyHeap_good, by decide +kernel, by decide +kernel⟩

/-- **C128** (reporting an error). The new code is there, the old message is freed and one new message is allocated; other statuses stay as they are. -/
theorem c128_report (h : Heap) (hg : h.Good) (p m : Nat) (c d : Code) (hh : Holds h p m c) :
    ∃ n g, report true p d h = .ok g ∧ g.Good ∧ Holds g p n d ∧ g.live.Perm (n :: h.live.erase m) ∧ n ∉ h.live ∧ m ∉ g.live ∧
      statusCode p g = .ok d ∧ ∀ q, q ≠ p → g.status q = h.status q := by
  obtain ⟨e1, g1⟩ := malloc_good hg
  have hs := hg.start
  have hp0 := (hg.live p hh.object)
  have hm0 := (hg.live m hh.message)
  have hn : h.next ∉ h.live := fun hc => by have := hg.live _ hc; omega
  have hne : m ≠ h.next := by omega
  have hlive : (h.next :: h.live).erase m = h.next :: h.live.erase m := by
    rw [List.erase_cons_tail (by simp; omega)]
  have hf := free_ok g1 (p := m) (by simp [hh.message])
  have g2 := erase_good g1 m
  refine ⟨h.next, ⟨(h.next :: h.live).erase m, h.next + 1, fun q => if q = p then some ⟨d, h.next⟩ else h.status q, h.image⟩, ?_, ?_, ?_, ?_, hn, ?_, ?_, ?_⟩
  · unfold report newStatus
    rw [e1]
    simp only
    rw [if_neg (by omega)]
    simp only
    unfold assign
    rw [if_neg (by omega)]
    simp only [hh.there, dropStatus, hf]
  · refine ⟨g2.start, g2.live, g2.nodup, fun q hq => ⟨?_, (g2.fresh q hq).2⟩⟩
    show (if q = p then _ else _) = none
    have hq' : h.next + 1 ≤ q := hq
    rw [if_neg (by omega)]
    exact (g2.fresh q hq).1
  · refine ⟨if_pos rfl, ?_, ?_, by omega⟩
    · show p ∈ (h.next :: h.live).erase m
      rw [hlive]
      exact List.mem_cons_of_mem _ ((List.mem_erase_of_ne hh.apart).2 hh.object)
    · show h.next ∈ (h.next :: h.live).erase m
      rw [hlive]
      simp
  · show ((h.next :: h.live).erase m).Perm _
    rw [hlive]
  · show m ∉ (h.next :: h.live).erase m
    exact g1.nodup.not_mem_erase
  · unfold statusCode
    rw [if_neg (by omega)]
    simp
  · intro q hq
    exact if_neg hq

example : exHeap.Good ∧ Holds exHeap 1 2 .ok := exHeap_good

/-- Errors reported one after the other. -/
def reports (p : Nat) : List Code → Heap → Except Fault Heap
  | [], h => .ok h
  | c :: l, h => (report true p c h).bind (reports p l)

/-- **C128** (any number of errors). Nothing is freed twice, no memory is lost, and the last error is the one that can be asked for. -/
theorem c128_reports (l : List Code) : ∀ (h : Heap) (p m : Nat) (c : Code), h.Good → Holds h p m c →
    ∃ n g, reports p l h = .ok g ∧ g.Good ∧ Holds g p n ((c :: l).getLast (by simp)) ∧ g.live.length = h.live.length ∧
      ∀ q, q ≠ p → g.status q = h.status q := by
  induction l with
  | nil => intro h p m c hg hh; exact ⟨m, h, rfl, hg, hh, rfl, fun _ _ => rfl⟩
  | cons d l ih =>
    intro h p m c hg hh
    obtain ⟨n, g, e, hg1, hh1, hperm, -, -, -, hst⟩ := c128_report h hg p m c d hh
    obtain ⟨n2, g2, e2, hg2, hh2, hlen, hst2⟩ := ih g p n d hg1 hh1
    refine ⟨n2, g2, ?_, hg2, ?_, ?_, fun q hq => (hst2 q hq).trans (hst q hq)⟩
    · unfold reports
      rw [e]
      exact e2
    · rw [List.getLast_cons (by simp)]
      exact hh2
    · have h1 := hperm.length_eq
      rw [List.length_cons, List.length_erase_of_mem hh.message] at h1
      have := List.length_pos_of_mem hh.message
      omega

example : ((reports 1 [.ioErrors, .decodeErrors] exHeap).toOption.map fun g => (g.live, g.status 1)) = some ([4, 1], some ⟨.decodeErrors, 4⟩) := by
  decide +kernel

/-- **C128** (disagreement). `zil_status_free` can not be used on any status: it frees the message twice. -/
theorem c128_status_free_wrong (h : Heap) (hg : h.Good) (p m : Nat) (c : Code) (hh : Holds h p m c) : statusFree p h = .error .badFree := by
  have hp0 := (hg.live p hh.object)
  have hm0 := (hg.live m hh.message)
  unfold statusFree
  rw [if_neg (by omega)]
  simp only [hh.there, free_ok hg hh.message, dropStatus]
  unfold free
  rw [if_neg (by omega), if_neg (by exact hg.nodup.not_mem_erase)]

example : statusFree 1 exHeap |>.toOption.isNone := by decide +kernel

/-- **C128** (disagreement). `zil_zimg_new` assigns to fresh memory, which drops a picture that is not there. -/
theorem c128_image_new_wrong (h : Heap) (hg : h.Good) : zimgNew true h = .error .uninitialised := by
  have := hg.start
  unfold zimgNew
  rw [(malloc_good hg).1]
  simp only
  unfold assignImage
  rw [if_neg (by omega)]
  simp only [(hg.fresh h.next (Nat.le_refl _)).2]
  rfl

example : emptyHeap.Good := emptyHeap_good

/-- **C128** (`zil_free_and_null`). The memory is freed and the pointer is null; a second call panics. -/
theorem c128_free_and_null (h : Heap) (hg : h.Good) (p : Nat) (hp : p ∈ h.live) :
    ∃ g, freeAndNull p h = .ok (0, g) ∧ g.Good ∧ (∀ q, q ∈ g.live ↔ q ∈ h.live ∧ q ≠ p) ∧ freeAndNull 0 g = .error .panic := by
  refine ⟨_, by unfold freeAndNull; rw [free_ok hg hp], erase_good hg p, fun q => ?_, rfl⟩
  rw [hg.nodup.mem_erase_iff, and_comm]

example : 1 ∈ exHeap.live := exHeap_good.2.object

/-- **C128** (`zil_imdecode`, success). The caller gets new memory and a status that says all is well; nothing else is allocated. -/
theorem c128_imdecode (h : Heap) (hg : h.Good) (p m : Nat) (c : Code) (hh : Holds h p m c) (room : Bool) :
    ∃ out g, imdecode true room true none p h = .ok (out, g) ∧ g.Good ∧ out ≠ 0 ∧ out ∉ h.live ∧ g.live = out :: h.live ∧ Holds g p m .ok := by
  have hs := hg.start
  have hp0 := (hg.live p hh.object)
  have hm0 := (hg.live m hh.message)
  obtain ⟨e1, g1⟩ := malloc_good hg
  refine ⟨h.next, ⟨h.next :: h.live, h.next + 1, fun q => if q = p then some ⟨.ok, m⟩ else h.status q, h.image⟩, ?_, ?_, by omega,
    fun hc => by have := hg.live _ hc; omega, rfl, ?_⟩
  · unfold imdecode
    rw [if_neg (by omega), if_neg (by simp), e1]
    simp only [hh.there]
    rw [if_neg (by omega)]
    unfold statusOk
    rw [if_neg (by omega)]
    simp
  · refine ⟨g1.start, g1.live, g1.nodup, fun q hq => ⟨?_, (g1.fresh q hq).2⟩⟩
    show (if q = p then _ else _) = none
    have hq' : h.next + 1 ≤ q := hq
    rw [if_neg (by omega)]
    exact (g1.fresh q hq).1
  · exact ⟨if_pos rfl, List.mem_cons_of_mem _ hh.object, List.mem_cons_of_mem _ hh.message, hh.apart⟩

example : ((imdecode true true true none 1 exHeap).toOption.map fun r => (r.1, r.2.live)) = some (3, [3, 2, 1]) := by decide +kernel

/-- **C128** (disagreement). When the headers of a file can be read but the rest can not be decoded, `zil_imdecode` returns null and the memory for the samples is lost:
one more address is allocated, other than the status and its message. -/
theorem c128_imdecode_leak_wrong (h : Heap) (hg : h.Good) (p m : Nat) (c d : Code) (hd : d ≠ .ok) (hh : Holds h p m c) :
    ∃ lost n g, imdecode true true true (some d) p h = .ok (0, g) ∧ g.Good ∧ Holds g p n d ∧ lost ∈ g.live ∧ lost ∉ h.live ∧ lost ≠ n ∧ lost ≠ p ∧
      g.live.length = h.live.length + 1 := by
  have hs := hg.start
  have hp0 := (hg.live p hh.object)
  obtain ⟨e1, g1⟩ := malloc_good hg
  have hn : h.next ∉ h.live := fun hc => by have := hg.live _ hc; omega
  obtain ⟨n, g, e, hg2, hh2, hperm, hnew, -, hcode, -⟩ := c128_report _ g1 p m c d
    ⟨hh.there, List.mem_cons_of_mem _ hh.object, List.mem_cons_of_mem _ hh.message, hh.apart⟩
  have hne : h.next ≠ m := by have := (hg.live m hh.message); omega
  refine ⟨h.next, n, g, ?_, hg2, hh2, ?_, hn, ?_, by omega, ?_⟩
  · unfold imdecode
    rw [if_neg (by omega), if_neg (by simp), e1]
    simp only
    rw [if_neg (by omega), e]
    simp only
    unfold statusOk
    rw [if_neg (by omega)]
    simp [hh2.there, hd]
  · refine hperm.mem_iff.2 (List.mem_cons_of_mem _ ?_)
    exact (List.mem_erase_of_ne hne).2 (by simp)
  · rintro rfl
    exact hnew (by simp)
  · have h1 := hperm.length_eq
    rw [List.length_cons, List.length_erase_of_mem (List.mem_cons_of_mem _ hh.message), List.length_cons] at h1
    omega

example : ((imdecode true true true (some .decodeErrors) 1 exHeap).toOption.map fun r => (r.1, r.2.live)) = some (0, [4, 3, 1]) := by decide +kernel

/-- **C128** (`zil_imdecode`, failures before decoding). When the headers can not be read, or there is no memory for the samples, null is returned, the status has the code
for it, and no memory is lost. -/
theorem c128_imdecode_fails (h : Heap) (hg : h.Good) (p m : Nat) (c : Code) (hh : Holds h p m c) (room info : Bool) (inner : Option Code)
    (hf : info = false ∨ room = false) :
    ∃ n g, imdecode room true info inner p h = .ok (0, g) ∧ g.Good ∧ Holds g p n (if info then .mallocFailed else .decodeErrors) ∧
      g.live.length = h.live.length ∧ ∀ q, q ≠ p → g.status q = h.status q := by
  have hp0 := (hg.live p hh.object)
  have hlen : ∀ (n : Nat) (g : Heap), g.live.Perm (n :: h.live.erase m) → g.live.length = h.live.length := by
    intro n g hperm
    have h1 := hperm.length_eq
    rw [List.length_cons, List.length_erase_of_mem hh.message] at h1
    have := List.length_pos_of_mem hh.message
    omega
  unfold imdecode
  rw [if_neg (by omega)]
  cases info
  · obtain ⟨n, g, e, hg1, hh1, hperm, -, -, -, hst⟩ := c128_report h hg p m c .decodeErrors hh
    refine ⟨n, g, ?_, hg1, hh1, hlen n g hperm, hst⟩
    rw [if_pos rfl, e]
    rfl
  · obtain rfl : room = false := by simpa using hf
    obtain ⟨n, g, e, hg1, hh1, hperm, -, -, -, hst⟩ := c128_report h hg p m c .mallocFailed hh
    refine ⟨n, g, ?_, hg1, hh1, hlen n g hperm, hst⟩
    rw [if_neg (by simp)]
    simp only [malloc, Bool.false_eq_true, if_false, if_true]
    rw [e]
    rfl

example : ((imdecode false true true none 1 exHeap).toOption.map fun r => (r.1, r.2.live, r.2.status 1)) = some (0, [3, 1], some ⟨.mallocFailed, 3⟩) := by
  decide +kernel

/-- **C128** (null). A null status is never success and has the code that says so, it can be freed, and `zil_imdecode` with it does nothing. -/
theorem c128_null (h : Heap) (room1 room2 info : Bool) (inner : Option Code) :
    statusOk 0 h = .ok false ∧ (∃ c, statusCode 0 h = .ok c ∧ c ≠ .ok ∧ c = .nullStatus) ∧ statusFree 0 h = .ok h ∧
      imdecode room1 room2 info inner 0 h = .ok (0, h) :=
  ⟨rfl, ⟨_, rfl, by decide, rfl⟩, rfl, rfl⟩

example : (statusFree 0 exHeap).toOption.map (fun g => g.live) = some [2, 1] := by decide +kernel

end Zune.Capi
