import Verif.Proofs.DeploySettings
import Verif.Props.Files

/-!
# C91: deploying the contracts
-/

namespace Shutter.Deploy.Props
open Shutter.Sol Shutter.Files
open Shutter.App (Addr)

section
variable {E : Env} {owner : Address} {addr : Nat → Addr} {n : Nat}

/-- If the command says that it is done, then its file has ten addresses, at each of them is the contract that it should be, the contracts
refer to each other as they should, and whatever others did in the meantime, the state of the contracts is one that can also come about after a
deployment at once, with the deployer as owner. -/
theorem C91_success (ha : GoodAddresses addr n) (cx : Events.Codecs) {s0 s : Site} (h0 : Start n s0) (hs : SiteLater E owner addr n s0 s)
    {file : Events.Text} (hd : report cx addr n s.receipts = .done file) :
    ∃ c : Contracts, Contracts.load cx file = some c ∧ c.Valid ∧ Wired s c ∧ FromDeployment E owner c s.world ∧
      WorldReach E s.world := by
  obtain ⟨rfl, hr⟩ := report_done hd
  have hi := site_inv (E := E) (owner := owner) ha (start_inv h0) hs
  have hv : (deployBatch addr n).1.Valid := by
    rw [batch_contracts]
    refine ⟨?_, ?_, ?_, ?_, ?_, ?_, ?_, ?_, ?_, ?_⟩ <;> first | exact ha.length 0 (by omega) | exact ha.length _ (by omega)
  refine ⟨(deployBatch addr n).1, contracts_load_save cx _ hv, hv, ?_⟩
  rw [batch_contracts]
  cases hi.phase with
  | failed m h1 h2 h3 =>
    have := hr (m - n) (by omega)
    rw [show n + (m - n) = m by omega, h3] at this
    cases this
  | spoiled h1 h2 h3 =>
    have := hr 9 (by omega)
    rw [hi.future (n + 9) (by omega) (by omega)] at this
    cases this
  | early block h1 h2 h3 h4 h5 =>
    have := hr 9 (by omega)
    rw [hi.future (n + 9) (by omega) (by omega)] at this
    cases this
  | complete block h1 h2 h3 h4 =>
    refine ⟨?_, ⟨block, h3, h4⟩, _, ⟨block, 20, 20, owner, _, _, _, h3, by decide, ha.nonzero 9 (by omega), rfl⟩, h4⟩
    constructor
    · exact code_placed ha (i := 0) rfl (by omega) s h2
    · exact code_placed ha (i := 1) rfl (by omega) s h2
    · exact code_placed ha (i := 2) rfl (by omega) s h2
    · exact code_placed ha (i := 3) rfl (by omega) s h2
    · exact code_placed ha (i := 4) rfl (by omega) s h2
    · exact code_placed ha (i := 5) rfl (by omega) s h2
    · exact code_placed ha (i := 6) rfl (by omega) s h2
    · exact code_placed ha (i := 7) rfl (by omega) s h2
    · exact code_placed ha (i := 8) rfl (by omega) s h2
    · exact code_placed ha (i := 9) rfl (by omega) s h2

/-- If the command says that it is done, then nothing has been set yet, whatever others did in the meantime: no config but the empty one, the
deployer owns the contracts, no fee, slashed tokens are burnt, and the slasher is the contract made for this. -/
theorem C91_untouched (ha : GoodAddresses addr n) (cx : Events.Codecs) {s0 s : Site} (h0 : Start n s0) (hs : SiteLater E owner addr n s0 s)
    {file : Events.Text} (hd : report cx addr n s.receipts = .done file) :
    ∃ c : Contracts, Contracts.load cx file = some c ∧ Untouched owner (sol c.slasher) s.world := by
  obtain ⟨rfl, hr⟩ := report_done hd
  have hi := site_inv (E := E) (owner := owner) ha (start_inv h0) hs
  have hv : (deployBatch addr n).1.Valid := by
    rw [batch_contracts]
    refine ⟨?_, ?_, ?_, ?_, ?_, ?_, ?_, ?_, ?_, ?_⟩ <;> first | exact ha.length 0 (by omega) | exact ha.length _ (by omega)
  refine ⟨_, contracts_load_save cx _ hv, ?_⟩
  rcases settings_later ha h0 hs with ⟨m, h1, h2, h3⟩ | h | h
  · have := hr (m - n) (by omega)
    rw [show n + (m - n) = m by omega, h3] at this
    cases this
  · have := hr 9 (by omega)
    rw [hi.future (n + 9) (by omega) (by omega)] at this
    cases this
  · rw [batch_contracts]; exact h

/-- With the registry there, enough gas, and nobody who becomes the slasher first, the command is done when its transactions are included. -/
theorem C91_succeeds (ha : GoodAddresses addr n) (cx : Events.Codecs) {s0 s : Site} (h0 : Start n s0) (hreg : s0.registry = true)
    (hs : Relation.ReflTransGen (LuckyStep E owner addr n) s0 s) (hall : n + 10 ≤ s.nonce) :
    ∃ file, report cx addr n s.receipts = .done file := by
  have hl : Lucky n s0 := by
    refine ⟨hreg, fun m h1 h2 => ?_, fun _ => ?_⟩
    · have := h0.nonce; omega
    · obtain ⟨b, _, h⟩ := h0.world
      rw [h]; rfl
  obtain ⟨_, h⟩ := lucky_later (E := E) (owner := owner) ha (start_inv h0) hl hs
  exact ⟨_, report_of_true (fun i hi => h.past _ (by omega) (by omega))⟩

/-- Anybody can call `setSlasher` of the deposit contract as soon as it is there. If somebody does so before the keyper slasher is created,
then the command never says that it is done. -/
theorem C91_front_run (ha : GoodAddresses addr n) (cx : Events.Codecs) {s0 s s' : Site} (h0 : Start n s0)
    (hs : SiteLater E owner addr n s0 s) (hn : s.nonce ≤ n + 9) (hset : s.world.deposit.slasher ≠ 0)
    (hs' : SiteLater E owner addr n s s') (file : Events.Text) : report cx addr n s'.receipts ≠ .done file := by
  intro hd
  obtain ⟨-, hr⟩ := report_done hd
  have hi := site_inv (E := E) (owner := owner) ha (start_inv h0) hs
  have hdoom : Doomed n s := by
    cases hi.phase with
    | failed m h1 h2 h3 => exact .failed m h1 h2 h3
    | spoiled h1 h2 h3 => exact .spoiled h1 h2 h3
    | early _ _ _ h3 _ _ => exact absurd h3.slasher hset
    | complete _ h1 _ _ _ => omega
  have hi' := site_inv (E := E) (owner := owner) ha hi hs'
  cases doomed_later ha hi hdoom hs' with
  | failed m h1 h2 h3 =>
    have := hr (m - n) (by omega)
    rw [show n + (m - n) = m by omega, h3] at this
    cases this
  | spoiled h1 h2 h3 =>
    have := hr 9 (by omega)
    rw [hi'.future (n + 9) (by omega) (by omega)] at this
    cases this

/-- On a chain without the ERC1820 registry the command never says that it is done. -/
theorem C91_no_registry (cx : Events.Codecs) {s0 s : Site} (h0 : Start n s0) (hreg : s0.registry = false)
    (hs : SiteLater E owner addr n s0 s) (file : Events.Text) : report cx addr n s.receipts ≠ .done file := by
  intro hd
  obtain ⟨-, hr⟩ := report_done hd
  have h : s.registry = false ∧ s.receipts (n + 5) ≠ some true := by
    clear hd hr
    induction hs with
    | refl => exact ⟨hreg, by rw [h0.receipts _ (by omega)]; simp⟩
    | tail _ h ih => exact unregistered_step ih h
  exact h.2 (hr 5 (by omega))

/-- From the deployment to the keypers: with the file of the deployment, and new keys, the keypers get configs with the addresses of contracts
that are there and belong together. -/
theorem C91_prepared {F : Type} (lib : Lib F) (hlib : lib.Lawful) (ha : GoodAddresses addr n) {s0 s : Site} (h0 : Start n s0)
    (hs : SiteLater E owner addr n s0 s) {file : Events.Text} (hd : report lib.cx addr n s.receipts = .done file)
    (keys : List Keys) (hne : keys ≠ []) (hkeys : ∀ k ∈ keys, k.Valid) (hsize : keys.length < 2 ^ 62)
    (ethereumURL shuttermintURL : Events.Text) (he : Plain ethereumURL) (hsh : Plain shuttermintURL)
    (hws : isWebsocketURL ethereumURL = true) (multiplier : F) (hm : lib.negative multiplier = false) :
    ∃ files json, prepare lib ethereumURL shuttermintURL multiplier file keys = some (files, json) ∧ files.length = keys.length ∧
      (∀ f ∈ files, ∀ path, ∃ c who, keyperMain lib noEnv path f = .runs c who ∧
        ∃ feeBank token, s.codeAt (sol c.configContract) = some (.config 20) ∧
          s.codeAt (sol c.keyBroadcastContract) = some (.keyBroadcast (sol c.configContract)) ∧
          s.codeAt (sol c.batcherContract) = some (.batcher (sol c.configContract) feeBank) ∧
          s.codeAt (sol c.depositContract) = some (.deposit token) ∧
          s.codeAt (sol c.executorContract) =
            some (.executor (sol c.configContract) (sol c.batcherContract) (sol c.depositContract)) ∧
          s.codeAt (sol c.keyperSlasher) =
            some (.keyperSlasher 20 (sol c.configContract) (sol c.executorContract) (sol c.depositContract))) ∧
      ∃ bc executor proxy, FileConfig.load lib.cx json = some bc ∧ s.codeAt (sol bc.targetAddress) = some (.target proxy) ∧
        s.codeAt proxy = some (.targetProxy executor) ∧ ∃ a b d, s.codeAt executor = some (.executor a b d) := by
  obtain ⟨c, h1, h2, h3, -⟩ := C91_success ha lib.cx h0 hs hd
  obtain ⟨rfl, -⟩ := report_done hd
  have hc : c = (deployBatch addr n).1 := by
    have hv : (deployBatch addr n).1.Valid := by
      rw [batch_contracts]
      refine ⟨?_, ?_, ?_, ?_, ?_, ?_, ?_, ?_, ?_, ?_⟩ <;> first | exact ha.length 0 (by omega) | exact ha.length _ (by omega)
    rw [contracts_load_save lib.cx _ hv] at h1
    exact (Option.some.inj h1).symm
  rw [← hc]
  obtain ⟨files, json, p1, p2, p3, bc, p4, -, -, p7, -, -⟩ :=
    Files.Props.C90_prepare lib hlib c h2 keys hne hkeys hsize ethereumURL shuttermintURL he hsh hws multiplier hm
  refine ⟨files, json, p1, p2, ?_, bc, sol c.executor, sol c.targetProxy, p4, ?_, h3.targetProxy, _, _, _, h3.executor⟩
  · intro f hf path
    obtain ⟨i, hi⟩ := List.mem_iff_getElem?.1 hf
    have hl : i < keys.length := by rw [← p2]; exact (List.getElem?_eq_some_iff.1 hi).1
    obtain ⟨_, k⟩ := p3 i keys[i] f (List.getElem?_eq_getElem hl) hi
    exact ⟨_, _, k path, _, _, h3.config, h3.keyBroadcast, h3.batcher, h3.deposit, h3.executor, h3.slasher⟩
  · rw [p7]; exact h3.target

end

/-! ## Examples -/

namespace Demo

def E : Env := ⟨fun _ => zeroHash, fun _ _ => none⟩

def owner : Address := 7

def addr (m : Nat) : Addr := World.beBytes (1000 + m) 20

/-- The account has one pending transaction. -/
def s0 : Site := ⟨4, true, [], blank 100, fun _ => none⟩

def batch : List Tx := (deployBatch addr 5).2

/-- Transactions of the command are included. -/
def run (s : Site) : List Tx → Site
  | [] => s
  | t :: ts => run (s.include owner addr t true) ts

theorem include_nonce (s : Site) (t : Tx) (g : Bool) : (s.include owner addr t g).nonce = s.nonce + 1 := by
  unfold Site.include; split <;> rfl

theorem run_lucky : ∀ (ts : List Tx) (s : Site), (∀ t ∈ ts, t ∈ batch) →
    (∀ (i : Nat) (t : Tx), ts[i]? = some t → t.nonce = s.nonce + i) → Relation.ReflTransGen (LuckyStep E owner addr 5) s (run s ts)
  | [], s, _, _ => .refl
  | t :: ts, s, h1, h2 => by
    refine .head (.own (h1 t List.mem_cons_self) (by simpa using h2 0 t rfl)) (run_lucky ts _ (fun t ht => h1 t (List.mem_cons_of_mem _ ht)) ?_)
    intro i t' ht'
    rw [include_nonce, h2 (i + 1) t' (by simpa using ht')]
    omega

/-- The older transaction and the first six of the command. -/
def s1 : Site := run { s0 with nonce := 5 } (batch.take 6)

theorem good : GoodAddresses addr 5 := by
  constructor <;> decide +kernel

theorem start : Start 5 s0 := ⟨by decide, rfl, ⟨100, by decide, rfl⟩, fun _ _ => rfl⟩

theorem s1_later : Relation.ReflTransGen (LuckyStep E owner addr 5) s0 s1 := by
  refine .head (.others (.older (s := s0) (by decide)) (.inr (by decide)) (by decide) (by decide)) (run_lucky _ _ ?_ ?_)
  · intro t ht; exact List.mem_of_mem_take ht
  · intro i t h
    match i with
    | 0 | 1 | 2 | 3 | 4 | 5 => simp [batch, deployBatch, Batch.deploy] at h; subst h; rfl
    | _ + 6 => simp [batch, deployBatch, Batch.deploy] at h

/-- Somebody makes a call of the contracts. -/
def after (s : Site) (f : World → Option World) : Site := { s with world := (f s.world).getD s.world }

theorem after_call {s : Site} {op : Op} {f : World → Option World} (h1 : op.nested = []) (h2 : s.MayCall owner op)
    (h3 : ∀ w, w.step E op = f w) (h4 : (f s.world).isSome = true) : SiteStep E owner addr 5 s (after s f) := by
  refine .call (op := op) ⟨h2, by rw [h1]; intro o h; cases h⟩ ?_
  rw [h3]
  obtain ⟨w, hw⟩ := Option.isSome_iff_exists.1 h4
  rw [hw]; rfl

/-- Then account 9 deposits a fee, and the other four are included. -/
def s2 : Site := after s1 (·.feeDeposit 9 9 100)
def s3 : Site := run s2 (batch.drop 6)

/-- Or account 9 becomes the slasher. -/
def t2 : Site := after s1 (·.setSlasher 9)
def t3 : Site := run t2 (batch.drop 6)

theorem rest (s : Site) (h : s.nonce = 11) : Relation.ReflTransGen (LuckyStep E owner addr 5) s (run s (batch.drop 6)) := by
  refine run_lucky _ _ ?_ ?_
  · intro t ht; exact List.mem_of_mem_drop ht
  · intro i t ht
    rw [h]
    match i with
    | 0 | 1 | 2 | 3 => simp [batch, deployBatch, Batch.deploy] at ht; subst ht; rfl
    | _ + 4 => simp [batch, deployBatch, Batch.deploy] at ht

theorem s3_later : Relation.ReflTransGen (LuckyStep E owner addr 5) s0 s3 := by
  refine s1_later.trans (.head (.others (s' := s2) (after_call (op := .feeDeposit 9 9 100) rfl ?_ (fun w => by rw [World.step]; rfl) ?_)
    (.inl rfl) ?_ ?_) (rest s2 ?_))
  · exact ⟨.inl (by decide +kernel), by decide, by decide⟩
  all_goals decide +kernel

end Demo

open Demo in
/-- A deployment during which another account already deposits a fee. -/
theorem C91_example (cx : Events.Codecs) :
    Start 5 s0 ∧ SiteLater E owner addr 5 s0 s3 ∧ (∃ file, report cx addr 5 s3.receipts = .done file) ∧ s3.world.feeBank.deposits 9 = 100 ∧
      s3.world.deposit.slasher = 1014 ∧ s3.codeAt 1014 = some (.keyperSlasher 20 1005 1011 1010) := by
  refine ⟨start, Relation.ReflTransGen.mono (fun _ _ => lucky_site) _ _ s3_later, C91_succeeds good cx start rfl s3_later (by decide +kernel), ?_, ?_, ?_⟩ <;>
    decide +kernel

open Demo in
/-- In that deployment nothing has been set. -/
theorem C91_untouched_example (cx : Events.Codecs) : s3.world.config = Config.init 20 7 ∧ s3.world.owners = ⟨7, 7, 7, 7⟩ ∧ s3.world.deposit.slasher = 1014 := by
  obtain ⟨file, hd⟩ := C91_succeeds good cx start rfl s3_later (by decide +kernel)
  obtain ⟨_, _, h⟩ := C91_untouched good _ start (Relation.ReflTransGen.mono (fun _ _ => lucky_site) _ _ s3_later) hd
  exact ⟨h.config, h.owners, by decide +kernel⟩

open Demo in
/-- A deployment during which another account becomes the slasher: all transactions are included, the last one fails. -/
theorem C91_front_run_example (cx : Events.Codecs) :
    Start 5 s0 ∧ SiteLater E owner addr 5 s0 t2 ∧ t2.nonce ≤ 5 + 9 ∧ t2.world.deposit.slasher ≠ 0 ∧ SiteLater E owner addr 5 t2 t3 ∧
      t3.nonce = 15 ∧ report cx addr 5 t3.receipts = .failed := by
  refine ⟨start, (Relation.ReflTransGen.mono (fun _ _ => lucky_site) _ _ s1_later).tail
    (after_call (op := .setSlasher 9 9) rfl ⟨.inl (by decide +kernel), by decide, by decide⟩ (fun w => by rw [World.step]; rfl) (by decide +kernel)),
    by decide +kernel, by decide +kernel, Relation.ReflTransGen.mono (fun _ _ => lucky_site) _ _ (rest t2 (by decide +kernel)), by decide +kernel, ?_⟩
  unfold report
  simp only
  rw [if_neg (by decide +kernel), if_pos (by decide +kernel)]

end Shutter.Deploy.Props
