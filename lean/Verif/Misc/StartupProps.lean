import Verif.Misc.Startup

/-!
# Starting the server: settings (C92), the garbage collection interval (C93), the default database and schema (C94)
-/

namespace Seafowl.Startup

/-! ### C92 -/

/-- The settings in force: the environment before the file before nothing. -/
def InForce (file env : Raw) (cfg : String → Option String) : Prop :=
  ∀ key, (∀ v, env.lookup key = some v → cfg key = some v) ∧
    (env.lookup key = none → cfg key = file.lookup key)

/-- **C92**: if the configuration file exists, its settings and those of the environment are in force, and no file is
written. -/
theorem C92_in_force (fs : Fs) (env : Raw) (path : String) (file : Raw) (h : fs path = some file) :
    InForce file env (startConfig fs env path).1 ∧ (startConfig fs env path).2 = fs := by
  simp only [startConfig, h, Option.isSome_some, Bool.true_or, if_true, and_true, loadConfig, Option.getD_some]
  intro key
  unfold merge
  refine ⟨fun v hv => by rw [hv], fun hn => by rw [hn]⟩

/-- **C92**: without a file at the default place the default settings are in force and are written there; all other
files stay as they are. -/
theorem C92_default (fs : Fs) (env : Raw) (h : fs "seafowl.toml" = none) :
    InForce defaultFile env (startConfig fs env "seafowl.toml").1 ∧
    (startConfig fs env "seafowl.toml").2 "seafowl.toml" = some defaultFile ∧
    ∀ p, p ≠ "seafowl.toml" → (startConfig fs env "seafowl.toml").2 p = fs p := by
  change fs defaultPath = none at h
  change InForce defaultFile env (startConfig fs env defaultPath).1 ∧
    (startConfig fs env defaultPath).2 defaultPath = some defaultFile ∧
    ∀ p, p ≠ defaultPath → (startConfig fs env defaultPath).2 p = fs p
  simp only [startConfig, h, Option.isSome_none, bne_self_eq_false, Bool.false_or, Bool.false_eq_true, if_false, if_true, true_and]
  refine ⟨?_, fun p hp => by simp [hp]⟩
  intro key
  unfold merge
  refine ⟨fun v hv => by rw [hv], fun hn => by rw [hn]⟩

/-- **C92**: starting again with the same arguments and environment gives the same settings and writes nothing. -/
theorem C92_again (fs : Fs) (env : Raw) (path : String) :
    startConfig (startConfig fs env path).2 env path = startConfig fs env path := by
  by_cases h : ((fs path).isSome || path != defaultPath) = true
  · have : startConfig fs env path = (loadConfig fs env path, fs) := if_pos h
    rw [this]
    exact this
  · have hp : path = defaultPath := by
      simp only [Bool.or_eq_true, bne_iff_ne, ne_eq, not_or, Classical.not_not] at h
      exact h.2
    have : startConfig fs env path = (merge defaultFile env, fun p => if p = defaultPath then some defaultFile else fs p) :=
      if_neg h
    rw [this]
    subst hp
    simp [startConfig, loadConfig]

/-- **C92**: anyone may write over HTTP only if the file or the environment says so. -/
theorem C92_writes_off (fs : Fs) (env : Raw) (path : String)
    (henv : env.lookup "frontend.http.write_access" = none)
    (hfile : ∀ file, fs path = some file → file.lookup "frontend.http.write_access" = none) :
    writeAccess (startConfig fs env path).1 = .off := by
  unfold startConfig
  split
  · have : merge ((fs path).getD []) env "frontend.http.write_access" = none := by
      unfold merge
      rw [henv]
      cases hf : fs path with
      | none => rfl
      | some file => exact hfile file hf
    simp only [writeAccess, loadConfig, this, Option.map_none, Option.getD_none]
  · have : merge defaultFile env "frontend.http.write_access" = some "off" := by
      unfold merge
      rw [henv]
      decide
    simp only [writeAccess, this, Option.map_some, Option.getD_some]
    decide

/-- The value of a setting decides the access: the words `any` and `off` are themselves, everything else is the hash of a
password. -/
theorem C92_access (s : String) : (parseAccess s = .any ↔ s = "any") ∧ (parseAccess s = .off ↔ s = "off") ∧
    ∀ h, parseAccess s = .password h ↔ h = s ∧ s ≠ "any" ∧ s ≠ "off" := by
  unfold parseAccess
  split
  · next h => subst h; simp
  · split
    · next h => subst h; simp
    · next h1 h2 =>
      refine ⟨by simp [h1], by simp [h2], fun h => ?_⟩
      simp only [Access.password.injEq, h1, h2, ne_eq, not_false_eq_true, and_true]
      exact eq_comm

/-- **C92 does not hold**: a configuration file that was given by name and does not exist is no error; the server runs
with what the environment gives, here without any of the settings that were meant. -/
theorem C92_violated (fs : Fs) (env : Raw) (path : String) (hp : path ≠ "seafowl.toml") (hn : fs path = none) (key : String) :
    (startConfig fs env path).1 key = env.lookup key := by
  have : ((fs path).isSome || path != defaultPath) = true := by simp [defaultPath, hp]
  have h2 : startConfig fs env path = (loadConfig fs env path, fs) := if_pos this
  rw [h2]
  show merge ((fs path).getD []) env key = _
  rw [hn]
  unfold merge
  cases env.lookup key with
  | none => rfl
  | some v => rfl

/-- In that case reads over HTTP are open to anyone, whatever the missing file would have said. -/
theorem C92_violated_read (fs : Fs) (path : String) (hp : path ≠ "seafowl.toml") (hn : fs path = none) :
    readAccess (startConfig fs [("frontend.http.bind_host", "0.0.0.0")] path).1 = .any := by
  simp only [readAccess, C92_violated fs _ path hp hn]
  decide

/-- The hypotheses of the theorems hold for a file that protects reads. -/
example : readAccess (startConfig (fun p => if p = "a.toml" then some [("frontend.http.read_access", "4364aacb")] else none)
    [] "a.toml").1 = .password "4364aacb" ∧
    writeAccess (startConfig (fun p => if p = "a.toml" then some [("frontend.http.read_access", "4364aacb")] else none)
    [] "a.toml").1 = .off ∧
    writeAccess (startConfig (fun _ => none) [("frontend.http.write_access", "any")] defaultPath).1 = .any := by
  refine ⟨by decide, by decide, by decide⟩

/-! ### C93 -/

/-- **C93** (`_partial`: intervals of at most 18 hours): a server with frontends and a default object store collects
garbage every `interval` hours; 0 means never. -/
theorem C93_interval_partial (f : Frontends) (hf : f.flight = true ∨ f.postgres = true ∨ f.http = true) (interval : Nat)
    (h : interval ≤ 18) :
    mode ⟨false, none, false⟩ f interval true =
      .serve f (if interval = 0 then none else some (interval * 3600)) := by
  have h1 : (!(f.flight || f.postgres || f.http)) = false := by
    rcases hf with h | h | h <;> simp [h]
  have h2 : gcTask interval true = some (if interval = 0 then none else some (interval * 3600)) := by
    unfold gcTask gcSeconds
    have hlt : interval * 3600 < 2 ^ 16 := by omega
    rw [Nat.mod_eq_of_lt hlt]
    rcases Nat.eq_zero_or_pos interval with h0 | h0
    · simp [h0]
    · have : interval ≠ 0 := by omega
      have h3 : interval * 3600 ≠ 0 := by omega
      simp [h0, this]
      omega
  simp [mode, h1, h2]

/-- **C93 does not hold** above: every interval of more than 18 hours that the configuration can express (16 bits) is shorter
than asked for, or the server does not start. -/
theorem C93_violated (f : Frontends) (hf : f.flight = true ∨ f.postgres = true ∨ f.http = true) (interval : Nat)
    (h : 18 < interval) :
    mode ⟨false, none, false⟩ f interval true = .panic ∨
    ∃ s, mode ⟨false, none, false⟩ f interval true = .serve f (some s) ∧ s < interval * 3600 ∧ s ≤ 65520 := by
  have h1 : (!(f.flight || f.postgres || f.http)) = false := by
    rcases hf with h | h | h <;> simp [h]
  have h0 : 0 < interval := by omega
  by_cases hz : gcSeconds interval = 0
  · left
    simp [mode, h1, gcTask, h0, hz]
  · right
    refine ⟨gcSeconds interval, by simp [mode, h1, gcTask, h0, hz], ?_, ?_⟩
    · unfold gcSeconds at *
      have := Nat.mod_lt (interval * 3600) (show 0 < 2 ^ 16 by decide)
      omega
    · unfold gcSeconds
      omega

/-- One day is turned into less than six hours, 4096 hours stop the server. -/
example : mode ⟨false, none, false⟩ ⟨false, false, true⟩ 24 true = .serve ⟨false, false, true⟩ (some 20864) ∧
    mode ⟨false, none, false⟩ ⟨false, false, true⟩ 4096 true = .panic ∧
    mode ⟨false, none, false⟩ ⟨false, false, true⟩ 12 true = .serve ⟨false, false, true⟩ (some 43200) := by
  refine ⟨by decide, by decide, by decide⟩

/-- Exactly the multiples of 4096 hours stop the server. -/
theorem C93_panics (f : Frontends) (hf : f.flight = true ∨ f.postgres = true ∨ f.http = true) (interval : Nat) (store : Bool) :
    mode ⟨false, none, false⟩ f interval store = .panic ↔ 0 < interval ∧ interval % 4096 = 0 := by
  have h1 : (!(f.flight || f.postgres || f.http)) = false := by
    rcases hf with h | h | h <;> simp [h]
  have h2 : gcSeconds interval = 0 ↔ interval % 4096 = 0 := by unfold gcSeconds; omega
  have h3 : gcTask interval store = none ↔ 0 < interval ∧ interval % 4096 = 0 := by
    rw [← h2]
    unfold gcTask
    split
    · split
      · simp_all
      · split <;> simp_all
    · simp_all
  rw [← h3]
  simp only [mode, h1, Bool.false_eq_true, if_false]
  cases gcTask interval store <;> simp

/-- **C93**: one-off commands, the CLI and the version never start frontends or garbage collection; without any frontend
the server ends with an error; without a default object store nothing is collected. -/
theorem C93_modes (a : Args) (f : Frontends) (interval : Nat) (store : Bool) :
    (a.version = true → mode a f interval store = .printVersion) ∧
    (∀ c, a.version = false → a.oneOff = some c → mode a f interval store = .oneOff c) ∧
    (a.version = false → a.oneOff = none → a.cli = true → mode a f interval store = .cli) ∧
    (a = ⟨false, none, false⟩ → f = ⟨false, false, false⟩ → mode a f interval store = .noFrontends) ∧
    (∀ g s, mode a f interval store = .serve g (some s) → g = f ∧ store = true) := by
  refine ⟨fun h => by simp [mode, h], fun c h1 h2 => by simp [mode, h1, h2], fun h1 h2 h3 => by simp [mode, h1, h2, h3],
    fun h1 h2 => by subst h1 h2; simp [mode], fun g s h => ?_⟩
  unfold mode at h
  split at h
  · cases h
  · split at h
    · cases h
    · split at h
      · cases h
      · split at h
        · cases h
        · split at h
          · cases h
          · next gc hg =>
            simp only [Mode.serve.injEq] at h
            obtain ⟨h1, h2⟩ := h
            subst h1 h2
            refine ⟨rfl, ?_⟩
            unfold gcTask at hg
            split at hg
            · split at hg
              · cases hg
              · split at hg
                · assumption
                · cases hg
            · cases hg

/-! ### C94 -/

/-- The entries of a catalog that are not the default ones. -/
def Cat.others (c : Cat) : List String × List (String × String) :=
  (c.dbs.filter (· != defaultDb), c.schemas.filter (· != (defaultDb, defaultSchema)))

/-- Names are unique. -/
def Cat.Unique (c : Cat) : Prop := c.dbs.Nodup ∧ c.schemas.Nodup

/-- What holds of the catalog and the servers at any time. -/
structure Inv (c0 : Cat) (S : Sys) : Prop where
  unique : S.cat.Unique
  others : S.cat.others = c0.others
  db0 : defaultDb ∈ c0.dbs → defaultDb ∈ S.cat.dbs
  schema0 : (defaultDb, defaultSchema) ∈ c0.schemas → (defaultDb, defaultSchema) ∈ S.cat.schemas
  /-- whoever misses an entry misses it since the beginning -/
  needDb : Pc.needDb ∈ S.servers → defaultDb ∉ c0.dbs
  needSchema : Pc.needSchema ∈ S.servers → (defaultDb, defaultSchema) ∉ c0.schemas
  haveDb : ∀ pc ∈ S.servers, pc = .haveDb ∨ pc = .needSchema ∨ pc = .up → defaultDb ∈ S.cat.dbs
  up : Pc.up ∈ S.servers → (defaultDb, defaultSchema) ∈ S.cat.schemas
  /-- an entry that was made has a server that made it and goes on -/
  madeDb : defaultDb ∉ c0.dbs → defaultDb ∈ S.cat.dbs → ∃ pc ∈ S.servers, pc = .haveDb ∨ pc = .needSchema ∨ pc = .up
  madeSchema : (defaultDb, defaultSchema) ∉ c0.schemas → (defaultDb, defaultSchema) ∈ S.cat.schemas → Pc.up ∈ S.servers
  panic : Pc.panicked ∈ S.servers → (defaultDb ∉ c0.dbs ∨ (defaultDb, defaultSchema) ∉ c0.schemas) ∧
    ∃ pc ∈ S.servers, pc = .haveDb ∨ pc = .needSchema ∨ pc = .up

theorem inv_init (c0 : Cat) (hu : c0.Unique) (n : Nat) : Inv c0 (Sys.init c0 n) := by
  have h : ∀ pc ∈ (Sys.init c0 n).servers, pc = .start := fun pc hp => (List.mem_replicate.1 hp).2
  refine ⟨hu, rfl, id, id, ?_, ?_, ?_, ?_, fun h1 h2 => absurd h2 h1, fun h1 h2 => absurd h2 h1, ?_⟩
  · intro hm; cases h _ hm
  · intro hm; cases h _ hm
  · intro pc hm hp; rw [h _ hm] at hp; simp at hp
  · intro hm; cases h _ hm
  · intro hm; cases h _ hm

theorem mem_set_of_ne {l : List Pc} {i : Nat} {a b : Pc} (ha : l[i]? = some a) (x : Pc) (hx : x ∈ l) (hne : x ≠ a) :
    x ∈ l.set i b := by
  obtain ⟨j, hj, hjx⟩ := List.mem_iff_getElem.1 hx
  have hij : i ≠ j := by
    intro h
    subst h
    rw [List.getElem?_eq_getElem hj, Option.some.injEq] at ha
    exact hne (hjx ▸ ha)
  exact List.mem_iff_getElem.2 ⟨j, by simpa using hj, by rw [List.getElem_set_ne hij, hjx]⟩

theorem mem_set_self {l : List Pc} {i : Nat} {a b : Pc} (ha : l[i]? = some a) : b ∈ l.set i b := by
  have hi : i < l.length := (List.getElem?_eq_some_iff.1 ha).1
  exact List.mem_iff_getElem.2 ⟨i, by simpa using hi, by simp⟩

theorem inv_step (c0 : Cat) (S : Sys) (i : Nat) (I : Inv c0 S) : Inv c0 (S.step i) := by
  unfold Sys.step
  split
  · exact I
  · next pc hpc =>
    have hmem : pc ∈ S.servers := List.mem_of_getElem? hpc
    have hset : ∀ {x b : Pc}, x ∈ S.servers.set i b → x ∈ S.servers ∨ x = b := fun h => List.mem_or_eq_of_mem_set h
    have keep : ∀ {b : Pc} (x : Pc), x ∈ S.servers → x ≠ pc → x ∈ S.servers.set i b :=
      fun {b} x hx hne => mem_set_of_ne (b := b) hpc x hx hne
    have self : ∀ (b : Pc), b ∈ S.servers.set i b := fun b => mem_set_self hpc
    -- a server that goes on is still there, or it is the one that moved
    have goes : ∀ {b : Pc}, (pc = .haveDb ∨ pc = .needSchema ∨ pc = .up → b = .haveDb ∨ b = .needSchema ∨ b = .up) →
        (∃ x ∈ S.servers, x = Pc.haveDb ∨ x = .needSchema ∨ x = .up) →
        ∃ x ∈ S.servers.set i b, x = Pc.haveDb ∨ x = .needSchema ∨ x = .up := by
      rintro b hb ⟨x, hx, hg⟩
      by_cases hxp : x = pc
      · subst hxp; exact ⟨b, self b, hb hg⟩
      · exact ⟨x, keep x hx hxp, hg⟩
    obtain ⟨hu, ho, d0, s0, nd, ns, hd, up, md, ms, pn⟩ := I
    cases pc with
    | start =>
      simp only [stepPc]
      split
      · next hc =>
        have hc' : defaultDb ∈ S.cat.dbs := List.contains_iff_mem.1 hc
        refine ⟨hu, ho, d0, s0, fun h => ?_, fun h => ?_, fun x hx hg => hc', fun h => ?_, fun h1 h2 => ?_, fun h1 h2 => ?_, fun h => ?_⟩
        · exact (hset h).elim nd (by simp)
        · exact (hset h).elim ns (by simp)
        · exact (hset h).elim up (by simp)
        · exact goes (by simp) (md h1 h2)
        · exact keep _ (ms h1 h2) (by simp)
        · have := pn ((hset h).elim id (by simp))
          exact ⟨this.1, goes (by simp) this.2⟩
      · next hc =>
        have hc' : defaultDb ∉ S.cat.dbs := fun h => hc (List.contains_iff_mem.2 h)
        refine ⟨hu, ho, d0, s0, fun _ h => hc' (d0 h), fun h => ?_, fun x hx hg => ?_, fun h => ?_, fun h1 h2 => ?_, fun h1 h2 => ?_, fun h => ?_⟩
        · exact (hset h).elim ns (by simp)
        · rcases hset hx with hx | hx
          · exact hd x hx hg
          · subst hx; simp at hg
        · exact (hset h).elim up (by simp)
        · exact absurd h2 hc'
        · exact keep _ (ms h1 h2) (by simp)
        · have := pn ((hset h).elim id (by simp))
          exact ⟨this.1, goes (by simp) this.2⟩
    | needDb =>
      simp only [stepPc]
      split
      · next hc =>
        have hc' : defaultDb ∈ S.cat.dbs := List.contains_iff_mem.1 hc
        refine ⟨hu, ho, d0, s0, fun h => ?_, fun h => ?_, fun x hx hg => hc', fun h => ?_, fun h1 h2 => ?_, fun h1 h2 => ?_, fun h => ?_⟩
        · exact (hset h).elim nd (by simp)
        · exact (hset h).elim ns (by simp)
        · exact (hset h).elim up (by simp)
        · exact goes (by simp) (md h1 h2)
        · exact keep _ (ms h1 h2) (by simp)
        · exact ⟨.inl (nd hmem), goes (by simp) (md (nd hmem) hc')⟩
      · next hc =>
        have hc' : defaultDb ∉ S.cat.dbs := fun h => hc (List.contains_iff_mem.2 h)
        refine ⟨⟨?_, hu.2⟩, ?_, fun _ => by simp, s0, fun h => ?_, fun h => ?_, fun x hx hg => by simp, fun h => ?_, fun h1 h2 => ?_, fun h1 h2 => ?_, fun h => ?_⟩
        · rw [List.nodup_append]
          refine ⟨hu.1, by simp, ?_⟩
          intro a ha b hb
          rw [List.mem_singleton] at hb
          subst hb
          exact fun h => hc' (h ▸ ha)
        · rw [← ho]
          simp [Cat.others]
        · exact (hset h).elim nd (by simp)
        · exact (hset h).elim ns (by simp)
        · exact (hset h).elim up (by simp)
        · exact ⟨.haveDb, self _, .inl rfl⟩
        · exact keep _ (ms h1 h2) (by simp)
        · have := pn ((hset h).elim id (by simp))
          exact ⟨this.1, goes (by simp) this.2⟩
    | haveDb =>
      have hdb := hd _ hmem (.inl rfl)
      simp only [stepPc]
      split
      · next hc =>
        have hc' : (defaultDb, defaultSchema) ∈ S.cat.schemas := List.contains_iff_mem.1 hc
        refine ⟨hu, ho, d0, s0, fun h => ?_, fun h => ?_, fun x hx hg => hdb, fun h => hc', fun h1 h2 => ?_, fun h1 h2 => self _, fun h => ?_⟩
        · exact (hset h).elim nd (by simp)
        · exact (hset h).elim ns (by simp)
        · exact goes (by simp) (md h1 h2)
        · have := pn ((hset h).elim id (by simp))
          exact ⟨this.1, goes (by simp) this.2⟩
      · next hc =>
        have hc' : (defaultDb, defaultSchema) ∉ S.cat.schemas := fun h => hc (List.contains_iff_mem.2 h)
        refine ⟨hu, ho, d0, s0, fun h => ?_, fun h hh => hc' (s0 hh), fun x hx hg => hdb, fun h => ?_, fun h1 h2 => ?_, fun h1 h2 => absurd h2 hc', fun h => ?_⟩
        · exact (hset h).elim nd (by simp)
        · exact (hset h).elim up (by simp)
        · exact goes (by simp) (md h1 h2)
        · have := pn ((hset h).elim id (by simp))
          exact ⟨this.1, goes (by simp) this.2⟩
    | needSchema =>
      have hdb := hd _ hmem (.inr (.inl rfl))
      simp only [stepPc]
      split
      · next hc =>
        have hc' : (defaultDb, defaultSchema) ∈ S.cat.schemas := List.contains_iff_mem.1 hc
        have hup : Pc.up ∈ S.servers.set i Pc.panicked := keep _ (ms (ns hmem) hc') (by simp)
        refine ⟨hu, ho, d0, s0, fun h => ?_, fun h => ?_, fun x hx hg => hdb, fun h => hc', fun h1 h2 => ⟨.up, hup, by simp⟩, fun h1 h2 => hup, fun h => ⟨.inr (ns hmem), ⟨.up, hup, by simp⟩⟩⟩
        · exact (hset h).elim nd (by simp)
        · exact (hset h).elim ns (by simp)
      · next hc =>
        have hc' : (defaultDb, defaultSchema) ∉ S.cat.schemas := fun h => hc (List.contains_iff_mem.2 h)
        refine ⟨⟨hu.1, ?_⟩, ?_, d0, fun _ => by simp, fun h => ?_, fun h => ?_, fun x hx hg => hdb, fun h => by simp, fun h1 h2 => ?_, fun h1 h2 => self _, fun h => ?_⟩
        · rw [List.nodup_append]
          refine ⟨hu.2, by simp, ?_⟩
          intro a ha b hb
          rw [List.mem_singleton] at hb
          subst hb
          exact fun h => hc' (h ▸ ha)
        · rw [← ho]
          simp [Cat.others]
        · exact (hset h).elim nd (by simp)
        · exact (hset h).elim ns (by simp)
        · exact goes (by simp) (md h1 h2)
        · have := pn ((hset h).elim id (by simp))
          exact ⟨this.1, goes (by simp) this.2⟩
    | up =>
      have hid : S.servers.set i Pc.up = S.servers := by
        apply List.ext_getElem?
        intro j
        rw [List.getElem?_set]
        split
        · next h =>
          subst h
          rw [hpc, if_pos (List.getElem?_eq_some_iff.1 hpc).1]
        · rfl
      simp only [stepPc, hid]
      exact ⟨hu, ho, d0, s0, nd, ns, hd, up, md, ms, pn⟩
    | panicked =>
      have hid : S.servers.set i Pc.panicked = S.servers := by
        apply List.ext_getElem?
        intro j
        rw [List.getElem?_set]
        split
        · next h =>
          subst h
          rw [hpc, if_pos (List.getElem?_eq_some_iff.1 hpc).1]
        · rfl
      simp only [stepPc, hid]
      exact ⟨hu, ho, d0, s0, nd, ns, hd, up, md, ms, pn⟩

theorem inv_run (c0 : Cat) (sched : List Nat) (S : Sys) (I : Inv c0 S) : Inv c0 (S.run sched) := by
  induction sched generalizing S with
  | nil => exact I
  | cons i sched ih => exact ih _ (inv_step c0 S i I)

/-- **C94**: however many servers start on one catalog, in any interleaving: names stay unique, all other databases and
schemas stay as they are, and a server that is up finds the default database and schema. -/
theorem C94_catalog (c0 : Cat) (hu : c0.Unique) (n : Nat) (sched : List Nat) :
    ((Sys.init c0 n).run sched).cat.Unique ∧ ((Sys.init c0 n).run sched).cat.others = c0.others ∧
    (Pc.up ∈ ((Sys.init c0 n).run sched).servers →
      defaultDb ∈ ((Sys.init c0 n).run sched).cat.dbs ∧
      (defaultDb, defaultSchema) ∈ ((Sys.init c0 n).run sched).cat.schemas) := by
  have I := inv_run c0 sched _ (inv_init c0 hu n)
  exact ⟨I.unique, I.others, fun h => ⟨I.haveDb _ h (.inr (.inr rfl)), I.up h⟩⟩

/-- **C94** (`_partial`: only on a catalog that has the default database and schema): every server starts. -/
theorem C94_starts_partial (c0 : Cat) (hu : c0.Unique) (n : Nat) (sched : List Nat) (hd : defaultDb ∈ c0.dbs)
    (hs : (defaultDb, defaultSchema) ∈ c0.schemas) : Pc.panicked ∉ ((Sys.init c0 n).run sched).servers := by
  intro h
  have I := inv_run c0 sched _ (inv_init c0 hu n)
  rcases (I.panic h).1 with h | h
  · exact h hd
  · exact h hs

/-- **C94**: at least one of the servers starts: if all have come to an end, one is up. -/
theorem C94_one_starts (c0 : Cat) (hu : c0.Unique) (n : Nat) (hn : 0 < n) (sched : List Nat)
    (hend : ∀ pc ∈ ((Sys.init c0 n).run sched).servers, pc = .up ∨ pc = .panicked) :
    Pc.up ∈ ((Sys.init c0 n).run sched).servers := by
  have I := inv_run c0 sched _ (inv_init c0 hu n)
  have hlen : ∀ (S : Sys) (l : List Nat), (S.run l).servers.length = S.servers.length := by
    intro S l
    induction l generalizing S with
    | nil => rfl
    | cons i l ih =>
      show ((S.step i).run l).servers.length = _
      rw [ih]
      unfold Sys.step
      split <;> simp
  have hpos : 0 < ((Sys.init c0 n).run sched).servers.length := by
    rw [hlen]; simpa [Sys.init] using hn
  have hx := List.getElem_mem hpos
  generalize ((Sys.init c0 n).run sched).servers[0] = x at hx
  rcases hend x hx with h | h
  · exact h ▸ hx
  · obtain ⟨_, pc, hpc, hg⟩ := I.panic (h ▸ hx)
    rcases hend pc hpc with h2 | h2
    · exact h2 ▸ hpc
    · subst h2; simp at hg

/-- **C94**: a server that starts alone is up after at most four accesses, and the catalog is the one before with the
default entries added if they were missing. -/
theorem C94_alone (c0 : Cat) : ∃ c, (Sys.init c0 1).run [0, 0, 0, 0] = ⟨c, [.up]⟩ ∧
    c.dbs = (if defaultDb ∈ c0.dbs then c0.dbs else c0.dbs ++ [defaultDb]) ∧
    c.schemas = (if (defaultDb, defaultSchema) ∈ c0.schemas then c0.schemas else c0.schemas ++ [(defaultDb, defaultSchema)]) := by
  by_cases h1 : defaultDb ∈ c0.dbs <;> by_cases h2 : (defaultDb, defaultSchema) ∈ c0.schemas <;>
    simp [Sys.init, Sys.run, Sys.step, stepPc, h1, h2]

/-- **C94 does not hold**: of two servers that start at the same time on an empty catalog, one stops with an error,
either at the database or at the schema. -/
theorem C94_violated :
    (Sys.init ⟨[], []⟩ 2).run [0, 1, 0, 1, 0, 0] = ⟨⟨["default"], [("default", "public")]⟩, [.up, .panicked]⟩ ∧
    (Sys.init ⟨[], []⟩ 2).run [0, 0, 1, 0, 1, 0, 1] = ⟨⟨["default"], [("default", "public")]⟩, [.up, .panicked]⟩ := by
  refine ⟨by decide, by decide⟩

/-- Of the servers `i` and `j`, both of which found an entry missing, one has lost: if `made` (someone has made the entry)
one of them still is about to make it or has stopped, and otherwise both are about to make it. -/
def Lost (need : Pc) (S : Sys) (i j : Nat) (made : Prop) : Prop :=
  (¬ made ∧ S.servers[i]? = some need ∧ S.servers[j]? = some need) ∨
  (made ∧ ((S.servers[i]? = some need ∨ S.servers[i]? = some Pc.panicked) ∨
    (S.servers[j]? = some need ∨ S.servers[j]? = some Pc.panicked)))

theorem step_other (S : Sys) {i k : Nat} (h : k ≠ i) : (S.step k).servers[i]? = S.servers[i]? := by
  unfold Sys.step
  split
  · rfl
  · simp [List.getElem?_set_ne h]

theorem step_self (S : Sys) {i : Nat} {pc : Pc} (h : S.servers[i]? = some pc) :
    (S.step i).servers[i]? = some (stepPc S.cat pc).2 ∧ (S.step i).cat = (stepPc S.cat pc).1 := by
  obtain ⟨hl, he⟩ := List.getElem?_eq_some_iff.1 h
  subst he
  simp [Sys.step, hl]

theorem lost_db (S : Sys) (i j k : Nat) (hij : i ≠ j) (h : Lost .needDb S i j (defaultDb ∈ S.cat.dbs)) :
    Lost .needDb (S.step k) i j (defaultDb ∈ (S.step k).cat.dbs) := by
  have hmono : defaultDb ∈ S.cat.dbs → defaultDb ∈ (S.step k).cat.dbs := by
    intro hd
    unfold Sys.step
    split
    · exact hd
    · next pc _ => cases pc <;> simp only [stepPc] <;> (try split) <;> simp_all
  have stay : ∀ a : Nat, defaultDb ∈ S.cat.dbs → (S.servers[a]? = some Pc.needDb ∨ S.servers[a]? = some Pc.panicked) →
      ((S.step k).servers[a]? = some Pc.needDb ∨ (S.step k).servers[a]? = some Pc.panicked) := by
    intro a hd ha
    by_cases hk : k = a
    · subst hk
      rcases ha with ha | ha
      · right; rw [(step_self S ha).1]; simp [stepPc, hd]
      · right; rw [(step_self S ha).1]; simp [stepPc]
    · rw [step_other S hk]; exact ha
  rcases h with ⟨hd, hi, hj⟩ | ⟨hd, h⟩
  · by_cases hki : k = i
    · subst hki
      right
      refine ⟨?_, .inr (.inl ?_)⟩
      · rw [(step_self S hi).2]; simp [stepPc, hd]
      · rw [step_other S hij]; exact hj
    · by_cases hkj : k = j
      · subst hkj
        right
        refine ⟨?_, .inl (.inl ?_)⟩
        · rw [(step_self S hj).2]; simp [stepPc, hd]
        · rw [step_other S hki]; exact hi
      · by_cases hd' : defaultDb ∈ (S.step k).cat.dbs
        · exact .inr ⟨hd', .inl (.inl (by rw [step_other S hki]; exact hi))⟩
        · exact .inl ⟨hd', by rw [step_other S hki]; exact hi, by rw [step_other S hkj]; exact hj⟩
  · refine .inr ⟨hmono hd, ?_⟩
    rcases h with h | h
    · exact .inl (stay i hd h)
    · exact .inr (stay j hd h)

theorem lost_schema (S : Sys) (i j k : Nat) (hij : i ≠ j)
    (h : Lost .needSchema S i j ((defaultDb, defaultSchema) ∈ S.cat.schemas)) :
    Lost .needSchema (S.step k) i j ((defaultDb, defaultSchema) ∈ (S.step k).cat.schemas) := by
  have hmono : (defaultDb, defaultSchema) ∈ S.cat.schemas → (defaultDb, defaultSchema) ∈ (S.step k).cat.schemas := by
    intro hd
    unfold Sys.step
    split
    · exact hd
    · next pc _ => cases pc <;> simp only [stepPc] <;> (try split) <;> simp_all
  have stay : ∀ a : Nat, (defaultDb, defaultSchema) ∈ S.cat.schemas →
      (S.servers[a]? = some Pc.needSchema ∨ S.servers[a]? = some Pc.panicked) →
      ((S.step k).servers[a]? = some Pc.needSchema ∨ (S.step k).servers[a]? = some Pc.panicked) := by
    intro a hd ha
    by_cases hk : k = a
    · subst hk
      rcases ha with ha | ha
      · right; rw [(step_self S ha).1]; simp [stepPc, hd]
      · right; rw [(step_self S ha).1]; simp [stepPc]
    · rw [step_other S hk]; exact ha
  rcases h with ⟨hd, hi, hj⟩ | ⟨hd, h⟩
  · by_cases hki : k = i
    · subst hki
      right
      refine ⟨?_, .inr (.inl ?_)⟩
      · rw [(step_self S hi).2]; simp [stepPc, hd]
      · rw [step_other S hij]; exact hj
    · by_cases hkj : k = j
      · subst hkj
        right
        refine ⟨?_, .inl (.inl ?_)⟩
        · rw [(step_self S hj).2]; simp [stepPc, hd]
        · rw [step_other S hki]; exact hi
      · by_cases hd' : (defaultDb, defaultSchema) ∈ (S.step k).cat.schemas
        · exact .inr ⟨hd', .inl (.inl (by rw [step_other S hki]; exact hi))⟩
        · exact .inl ⟨hd', by rw [step_other S hki]; exact hi, by rw [step_other S hkj]; exact hj⟩
  · refine .inr ⟨hmono hd, ?_⟩
    rcases h with h | h
    · exact .inl (stay i hd h)
    · exact .inr (stay j hd h)

theorem lost_not_up {need : Pc} (hneed : need ≠ .up) {S : Sys} {i j : Nat} {made : Prop} (h : Lost need S i j made) :
    ¬ (S.servers[i]? = some Pc.up ∧ S.servers[j]? = some Pc.up) := by
  rintro ⟨hi, hj⟩
  rw [Lost, hi, hj] at h
  simp [Ne.symm hneed] at h

/-- Whenever two servers have both found the database missing before one of them made it, they never both come up,
whatever happens next. -/
theorem C94_violated_db (S : Sys) (i j : Nat) (hij : i ≠ j) (hd : defaultDb ∉ S.cat.dbs)
    (hi : S.servers[i]? = some Pc.needDb) (hj : S.servers[j]? = some Pc.needDb) (sched : List Nat) :
    ¬ ((S.run sched).servers[i]? = some Pc.up ∧ (S.run sched).servers[j]? = some Pc.up) := by
  have : Lost .needDb (S.run sched) i j (defaultDb ∈ (S.run sched).cat.dbs) := by
    have h0 : Lost .needDb S i j (defaultDb ∈ S.cat.dbs) := .inl ⟨hd, hi, hj⟩
    clear hd hi hj
    induction sched generalizing S with
    | nil => exact h0
    | cons k sched ih => exact ih _ (lost_db S i j k hij h0)
  exact lost_not_up (by decide) this

/-- The same for the schema. -/
theorem C94_violated_schema (S : Sys) (i j : Nat) (hij : i ≠ j) (hd : (defaultDb, defaultSchema) ∉ S.cat.schemas)
    (hi : S.servers[i]? = some Pc.needSchema) (hj : S.servers[j]? = some Pc.needSchema) (sched : List Nat) :
    ¬ ((S.run sched).servers[i]? = some Pc.up ∧ (S.run sched).servers[j]? = some Pc.up) := by
  have : Lost .needSchema (S.run sched) i j ((defaultDb, defaultSchema) ∈ (S.run sched).cat.schemas) := by
    have h0 : Lost .needSchema S i j ((defaultDb, defaultSchema) ∈ S.cat.schemas) := .inl ⟨hd, hi, hj⟩
    clear hd hi hj
    induction sched generalizing S with
    | nil => exact h0
    | cons k sched ih => exact ih _ (lost_schema S i j k hij h0)
  exact lost_not_up (by decide) this

/-- **C94 does not hold** for any catalog without the default database: if any two of the servers look for it before one
of them makes it, at most one of the two comes up. -/
theorem C94_violated_always (c0 : Cat) (n i j : Nat) (hij : i ≠ j) (hi : i < n) (hj : j < n) (hd : defaultDb ∉ c0.dbs)
    (sched : List Nat) :
    ¬ (((Sys.init c0 n).run (i :: j :: sched)).servers[i]? = some Pc.up ∧
      ((Sys.init c0 n).run (i :: j :: sched)).servers[j]? = some Pc.up) := by
  have e0 : ∀ a, a < n → (Sys.init c0 n).servers[a]? = some Pc.start := by
    intro a ha; simp [Sys.init, ha]
  have h1 := step_self (Sys.init c0 n) (e0 i hi)
  have c1 : ((Sys.init c0 n).step i).cat = c0 := by
    rw [h1.2]; simp [stepPc, Sys.init, hd]
  have s1 : ((Sys.init c0 n).step i).servers[i]? = some Pc.needDb := by
    rw [h1.1]; simp [stepPc, Sys.init, hd]
  have h2 := step_self ((Sys.init c0 n).step i) (i := j) (pc := .start) (by rw [step_other _ hij]; exact e0 j hj)
  have c2 : (((Sys.init c0 n).step i).step j).cat = c0 := by
    rw [h2.2, c1]; simp [stepPc, hd]
  have s2 : (((Sys.init c0 n).step i).step j).servers[j]? = some Pc.needDb := by
    rw [h2.1, c1]; simp [stepPc, hd]
  exact C94_violated_db (((Sys.init c0 n).step i).step j) i j hij (by rw [c2]; exact hd)
    (by rw [step_other _ (Ne.symm hij)]; exact s1) s2 sched

example : ¬ (((Sys.init ⟨["other"], []⟩ 3).run [2, 0, 0, 0, 2, 0]).servers[2]? = some Pc.up ∧
    ((Sys.init ⟨["other"], []⟩ 3).run [2, 0, 0, 0, 2, 0]).servers[0]? = some Pc.up) :=
  C94_violated_always _ 3 2 0 (by decide) (by decide) (by decide) (by decide) _

/-- The hypotheses of the theorems hold for a catalog with other entries. -/
example : Cat.Unique ⟨["other"], [("other", "public")]⟩ ∧
    (Sys.init ⟨["other"], [("other", "public")]⟩ 1).run [0, 0, 0, 0] =
      ⟨⟨["other", "default"], [("other", "public"), ("default", "public")]⟩, [.up]⟩ := by
  refine ⟨⟨by decide, by decide⟩, by decide⟩

end Seafowl.Startup
