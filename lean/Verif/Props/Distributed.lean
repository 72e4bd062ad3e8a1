import Verif.Model.Distributed
import Mathlib.Data.List.Nodup
import Mathlib.Data.List.Perm.Basic

/-!
# Properties of the distributed launcher (C135)
-/

namespace Verif.Props
open Verif.Model

theorem startWorkers_spec (c : String) (port n : ℕ) : ∀ (nodes : List NodeCfg) (i : ℕ),
    (∀ p ∈ (startWorkers c port n i nodes).1, p.env.coordAddr = some c ∧ p.env.coordPort = some port ∧
      p.env.numProcesses = some n ∧ p.args = [] ∧ p.fromStdin = true) ∧
    (startWorkers c port n i nodes).1.map (·.env.processId)
      = (List.range' i (startWorkers c port n i nodes).1.length).map some ∧
    ((startWorkers c port n i nodes).2 = .ok () ↔ ∀ k ∈ nodes, k.host ≠ none) ∧
    ((startWorkers c port n i nodes).2 = .ok () → (startWorkers c port n i nodes).1.length = nodes.length) ∧
    (startWorkers c port n i nodes).1.length
      = (nodes.takeWhile (fun k => k.host.isSome)).length := by
  intro nodes
  induction nodes with
  | nil => intro i; simp [startWorkers]
  | cons k t ih =>
    intro i
    cases hk : k.host with
    | none => simp [startWorkers, workerProc, hk]
    | some h =>
      obtain ⟨a, b, c', d, e⟩ := ih (i + 1)
      simp only [startWorkers, workerProc, hk]
      refine ⟨?_, ?_, ?_, ?_, ?_⟩
      · intro p hp
        rcases List.mem_cons.mp hp with rfl | hp
        · simp
        · exact a p hp
      · simp [b, List.range'_succ]
      · rw [c']; simp [hk]
      · intro h'; simp [d h']
      · rw [List.takeWhile_cons]
        simp [hk, e]

/-- C135: a launch that succeeds starts one process per node and one locally, all told the same coordinator and the same
number of processes, which is the number started, with process numbers that are `0 … n - 1`, each once; and every one of
them, calling `initialize`, joins with exactly these data. -/
theorem C135_consistent_cluster (cfg : ClusterCfg) (args : List String) (status : Proc → ℕ) (c : String)
    (hc : cfg.coordinator = some c) (hne : c ≠ "") (ps : List Proc) (rc : ℕ)
    (h : distLaunch cfg args status = (ps, .ok rc)) :
    ps.length = cfg.nodes.length + 1 ∧
    (∀ p ∈ ps, ∃ i, i < ps.length ∧ p.env.processId = some i ∧
      distInitialize p.env = .ok (some ⟨c, 1234, ps.length, i⟩)) ∧
    List.Perm (ps.map (·.env.processId)) ((List.range ps.length).map some) := by
  obtain ⟨hw, hid, _, hlen, _⟩ := startWorkers_spec c (cfg.port.getD 1234) (1 + cfg.nodes.length) cfg.nodes 1
  unfold distLaunch at h
  simp only [hc] at h
  cases hr : (startWorkers c (cfg.port.getD 1234) (1 + cfg.nodes.length) 1 cfg.nodes).2 with
  | error e => rw [hr] at h; simp at h
  | ok u =>
    rw [hr] at h
    simp only [Prod.mk.injEq] at h
    obtain ⟨h1, _⟩ := h
    have hl := hlen hr
    generalize hws : (startWorkers c (cfg.port.getD 1234) (1 + cfg.nodes.length) 1 cfg.nodes).1 = ws at *
    have hpl : ps.length = cfg.nodes.length + 1 := by rw [← h1]; simp [hl]
    refine ⟨hpl, ?_, ?_⟩
    · intro p hp
      rw [← h1] at hp
      rcases List.mem_append.mp hp with hp | hp
      · obtain ⟨a, b, d, _, _⟩ := hw p hp
        have hm : p.env.processId ∈ ws.map (·.env.processId) := List.mem_map.mpr ⟨p, hp, rfl⟩
        rw [hid] at hm
        obtain ⟨i, hi, he⟩ := List.mem_map.mp hm
        rw [List.mem_range'_1] at hi
        refine ⟨i, by omega, he.symm, ?_⟩
        unfold distInitialize
        simp only [a, d, ← he, if_neg hne]
        rw [hpl, Nat.add_comm]
      · rw [List.mem_singleton] at hp
        subst hp
        refine ⟨0, by omega, rfl, ?_⟩
        unfold distInitialize
        simp only [if_neg hne]
        rw [hpl, Nat.add_comm]
    · rw [hpl, ← h1]
      simp only [List.map_append, hid, hl, List.map_cons, List.map_nil]
      refine (List.perm_append_comm).trans ?_
      rw [List.range_eq_range', List.range'_succ]
      simp

/-- C135: without the launcher's variables `initialize` does nothing and says so. -/
theorem C135_single_node (env : JaxEnv) (h : env.coordAddr = none ∨ env.coordAddr = some "") :
    distInitialize env = .ok none := by
  rcases h with h | h <;> simp [distInitialize, h]

/-- C135: the launch succeeds exactly when the coordinator and the host of every node are given. -/
theorem C135_succeeds_iff (cfg : ClusterCfg) (args : List String) (status : Proc → ℕ) :
    (∃ ps rc, distLaunch cfg args status = (ps, .ok rc)) ↔
      cfg.coordinator ≠ none ∧ ∀ k ∈ cfg.nodes, k.host ≠ none := by
  unfold distLaunch
  cases hc : cfg.coordinator with
  | none => simp
  | some c =>
    obtain ⟨_, _, hok, _, _⟩ := startWorkers_spec c (cfg.port.getD 1234) (1 + cfg.nodes.length) cfg.nodes 1
    rw [← hok]
    simp only
    cases (startWorkers c (cfg.port.getD 1234) (1 + cfg.nodes.length) 1 cfg.nodes).2 <;> simp

/-- C135 fails for the port: whatever port the configuration names, every process of the launch joins at port 1234. -/
theorem C135_port_ignored (cfg : ClusterCfg) (args : List String) (status : Proc → ℕ) (ps : List Proc) (r : Except PyErr ℕ)
    (h : distLaunch cfg args status = (ps, r)) (p : Proc) (hp : p ∈ ps) (call : InitCall)
    (hi : distInitialize p.env = .ok (some call)) : p.env.coordPort = some (cfg.port.getD 1234) ∧ call.port = 1234 := by
  constructor
  · unfold distLaunch at h
    cases hc : cfg.coordinator with
    | none => simp [hc] at h; rw [h.1] at hp; cases hp
    | some c =>
      obtain ⟨hw, _⟩ := startWorkers_spec c (cfg.port.getD 1234) (1 + cfg.nodes.length) cfg.nodes 1
      simp only [hc] at h
      cases hr : (startWorkers c (cfg.port.getD 1234) (1 + cfg.nodes.length) 1 cfg.nodes).2 with
      | error e =>
        rw [hr] at h
        simp only [Prod.mk.injEq] at h
        rw [← h.1] at hp
        exact (hw p hp).2.1
      | ok u =>
        rw [hr] at h
        simp only [Prod.mk.injEq] at h
        rw [← h.1] at hp
        rcases List.mem_append.mp hp with hp | hp
        · exact (hw p hp).2.1
        · rw [List.mem_singleton] at hp; subst hp; rfl
  · unfold distInitialize at hi
    cases h1 : p.env.coordAddr with
    | none => simp [h1] at hi
    | some c =>
      cases h2 : p.env.numProcesses with
      | none => simp only [h1, h2] at hi; split at hi <;> simp at hi
      | some n =>
        cases h3 : p.env.processId with
        | none => simp only [h1, h2, h3] at hi; split at hi <;> simp at hi
        | some i =>
          simp only [h1, h2, h3] at hi
          split at hi
          · simp at hi
          · simp only [Except.ok.injEq, Option.some.injEq] at hi
            rw [← hi]

/-- C135 fails for the script arguments: only the local process gets them, every remote one runs without. -/
theorem C135_arguments_dropped (cfg : ClusterCfg) (args : List String) (status : Proc → ℕ) (ps : List Proc) (rc : ℕ)
    (h : distLaunch cfg args status = (ps, .ok rc)) :
    ∀ p ∈ ps, (p.env.processId = some 0 → p.args = args) ∧ (p.env.processId ≠ some 0 → p.args = []) := by
  intro p hp
  unfold distLaunch at h
  cases hc : cfg.coordinator with
  | none => simp [hc] at h
  | some c =>
    obtain ⟨hw, hid, _⟩ := startWorkers_spec c (cfg.port.getD 1234) (1 + cfg.nodes.length) cfg.nodes 1
    simp only [hc] at h
    cases hr : (startWorkers c (cfg.port.getD 1234) (1 + cfg.nodes.length) 1 cfg.nodes).2 with
    | error e => rw [hr] at h; simp at h
    | ok u =>
      rw [hr] at h
      simp only [Prod.mk.injEq] at h
      rw [← h.1] at hp
      rcases List.mem_append.mp hp with hp | hp
      · have hm : p.env.processId ∈ (startWorkers c (cfg.port.getD 1234) (1 + cfg.nodes.length) 1 cfg.nodes).1.map
            (·.env.processId) := List.mem_map.mpr ⟨p, hp, rfl⟩
        rw [hid] at hm
        obtain ⟨i, hi, he⟩ := List.mem_map.mp hm
        rw [List.mem_range'_1] at hi
        refine ⟨fun h0 => ?_, fun _ => (hw p hp).2.2.2.1⟩
        rw [h0] at he
        simp at he
        omega
      · rw [List.mem_singleton] at hp
        subst hp
        simp

/-- C135 fails for the exit status: it is the local process's, so a failing worker goes unnoticed. -/
theorem C135_worker_failure_hidden (cfg : ClusterCfg) (args : List String) (s1 s2 : Proc → ℕ)
    (hl : ∀ p, p.env.processId = some 0 → s1 p = s2 p) : distLaunch cfg args s1 = distLaunch cfg args s2 := by
  unfold distLaunch
  cases cfg.coordinator with
  | none => rfl
  | some c =>
    simp only
    cases (startWorkers c (cfg.port.getD 1234) (1 + cfg.nodes.length) 1 cfg.nodes).2 with
    | error e => rfl
    | ok u => simp only; rw [hl _ rfl]

/-- C135 fails for incomplete configurations: a node without host makes the launcher raise, but the workers of all nodes
before it are already running, with no coordinator to come. -/
theorem C135_orphaned_workers (cfg : ClusterCfg) (args : List String) (status : Proc → ℕ) (c : String)
    (hc : cfg.coordinator = some c) (hbad : ∃ k ∈ cfg.nodes, k.host = none) :
    (∃ e, (distLaunch cfg args status).2 = .error e) ∧
    (distLaunch cfg args status).1.length = (cfg.nodes.takeWhile (fun k => k.host.isSome)).length ∧
    ∀ p ∈ (distLaunch cfg args status).1, p.env.processId ≠ some 0 := by
  obtain ⟨hw, hid, hok, _, hl⟩ := startWorkers_spec c (cfg.port.getD 1234) (1 + cfg.nodes.length) cfg.nodes 1
  have hno : (startWorkers c (cfg.port.getD 1234) (1 + cfg.nodes.length) 1 cfg.nodes).2 ≠ .ok () := by
    rw [Ne, hok]
    obtain ⟨k, hk, hk'⟩ := hbad
    exact fun h => h k hk hk'
  unfold distLaunch
  simp only [hc]
  cases hr : (startWorkers c (cfg.port.getD 1234) (1 + cfg.nodes.length) 1 cfg.nodes).2 with
  | ok u => exact absurd hr hno
  | error e =>
    refine ⟨⟨e, rfl⟩, hl, ?_⟩
    intro p hp h0
    have hm : p.env.processId ∈ (startWorkers c (cfg.port.getD 1234) (1 + cfg.nodes.length) 1 cfg.nodes).1.map
        (·.env.processId) := List.mem_map.mpr ⟨p, hp, rfl⟩
    rw [hid, h0] at hm
    obtain ⟨i, hi, he⟩ := List.mem_map.mp hm
    rw [List.mem_range'_1] at hi
    simp at he
    omega

/-- Two nodes, another port. -/
def exCluster : ClusterCfg := { coordinator := some "10.0.0.1", port := some 5000, nodes := [⟨some "10.0.0.2", "", "feax"⟩, ⟨some "10.0.0.3", "k", "feax"⟩] }

example := C135_consistent_cluster exCluster ["--n", "4"] (fun _ => 0) "10.0.0.1" rfl (by decide) _ _ rfl
example := C135_orphaned_workers { exCluster with nodes := exCluster.nodes ++ [⟨none, "", "feax"⟩] } [] (fun _ => 0) "10.0.0.1" rfl
  ⟨⟨none, "", "feax"⟩, by decide, rfl⟩
/-- Configured for port 5000, the last process joins at 1234; the first worker has no arguments. -/
example : ((distLaunch exCluster ["--n"] (fun _ => 0)).1.map fun p => (p.env.coordPort, p.args)) =
    [(some 5000, []), (some 5000, []), (some 5000, ["--n"])] := by decide

end Verif.Props
