import Verif.Py
/-
Model of the two programs with which releases are made: .github/actions/upload-assets/utils/upload_assets.py and
.github/actions/prepare-release/utils/create_release.py, with common.py and retry.py.

The server keeps releases, each with a tag and named assets. What is assumed of it: a list request is answered with the first
30 releases; a new release comes first; a release has at most one asset of a name, and uploading a second one is refused;
names of assets are kept as they are. No other client changes releases meanwhile. Texts of log messages, headers, tokens and
the building of URLs are not modelled.
-/
namespace Verif.Release

/-- What becomes of a request: it is carried out and answered; it gets lost; it is carried out, but the answer is lost or is an
error; it is carried out, and the body of the answer is no JSON (which only `response.json()` notices). In the second and the third
case `requests` or `raise_for_status()` raises, and the program ends: this is also what a crash looks like to the server. -/
inductive Answer where
  | ok
  | lost
  | late
  | garbled
deriving DecidableEq

/-- how a program ends: `exit(code)` (also by reaching its end, with 0), or with an exception -/
inductive Halt where
  | exit (code : Int)
  | raised
deriving DecidableEq

/-- A release: its tag and its assets, by name. -/
structure Rel (T N B : Type) where
  tag : T
  assets : List (N × B)

/-- the assets of the release that the program works on, and the number of requests made so far -/
structure World (N B : Type) where
  assets : List (N × B)
  calls : Nat

section Upload
variable {N B D : Type} [DecidableEq N] [DecidableEq D]

/-- A request that changes the assets; `act` says what it does, `none` that the server refuses it, so that `raise_for_status()`
raises. upload_assets.py:69-71, 98-101 -/
def request (env : Nat → Answer) (act : List (N × B) → Option (List (N × B))) (w : World N B) : Except Halt Unit × World N B :=
  match env w.calls, act w.assets with
  | .lost, _ => (.error .raised, { w with calls := w.calls + 1 })
  | _, none => (.error .raised, { w with calls := w.calls + 1 })
  | .late, some a => (.error .raised, ⟨a, w.calls + 1⟩)
  | .ok, some a => (.ok (), ⟨a, w.calls + 1⟩)
  | .garbled, some a => (.ok (), ⟨a, w.calls + 1⟩)

/-- the content of the asset `n` -/
def look (assets : List (N × B)) (n : N) : Option B := (assets.find? (fun a => decide (a.1 = n))).map Prod.snd

/-- `delete_asset`; upload_assets.py:51-71. (The asset is found by its URL; it is the one of that name.) -/
def deleteAsset (env : Nat → Answer) (n : N) : World N B → Except Halt Unit × World N B :=
  request env (fun as => match look as n with
    | none => none
    | some _ => some (as.filter (fun a => decide (a.1 ≠ n))))

/-- `upload_asset`; upload_assets.py:74-102 -/
def uploadAsset (env : Nat → Answer) (f : N × B) : World N B → Except Halt Unit × World N B :=
  request env (fun as => match look as f.1 with
    | none => some (as ++ [f])
    | some _ => none)

/-- the request of `asset_hash`: the content of the asset; upload_assets.py:27-48 -/
def download (env : Nat → Answer) (n : N) (w : World N B) : Except Halt B × World N B :=
  match env w.calls, look w.assets n with
  | .ok, some c => (.ok c, { w with calls := w.calls + 1 })
  | .garbled, some c => (.ok c, { w with calls := w.calls + 1 })
  | _, _ => (.error .raised, { w with calls := w.calls + 1 })

/-- the options `--force` and `--replace`; upload_assets.py:135-140 -/
structure Options where
  force : Bool
  replace : Bool

/-- `delete_asset(asset, token)` and then `upload_asset(release, archive, token)`; upload_assets.py:171-172, 181-182 -/
def exchange (env : Nat → Answer) (f : N × B) (w : World N B) : Except Halt Unit × World N B :=
  match deleteAsset env f.1 w with
  | (.error e, w) => (.error e, w)
  | (.ok _, w) => uploadAsset env f w

/-- The body of the loop, for the file `f`; `assets` is the list that came with the release; upload_assets.py:157-187. `sha` is
sha256 (`check_hash` reads the file in pieces, upload_assets.py:105-120). (Exceptions of the download are no ValueErrors.) -/
def handle (o : Options) (sha : B → D) (env : Nat → Answer) (assets : List (N × B)) (f : N × B) (w : World N B) :
    Except Halt Unit × World N B :=
  match look assets f.1 with
  | none => uploadAsset env f w
  | some _ =>
    if o.force then exchange env f w
    else match download env f.1 w with
      | (.error e, w) => (.error e, w)
      | (.ok c, w) =>
        if sha f.2 = sha c then (.ok (), w)
        else if o.replace then exchange env f w
        else (.error (.exit (-1)), w)

/-- The loop over the files of the folder, in the order of `glob('*')`; upload_assets.py:156-187. (All entries are files.) -/
def handleAll (o : Options) (sha : B → D) (env : Nat → Answer) (assets : List (N × B)) :
    List (N × B) → World N B → Except Halt Unit × World N B
  | [], w => (.ok (), w)
  | f :: fs, w =>
    match handle o sha env assets f w with
    | (.error e, w) => (.error e, w)
    | (.ok _, w) => handleAll o sha env assets fs w

end Upload

section Releases
variable {T N B D : Type} [DecidableEq T] [DecidableEq N] [DecidableEq D]

/-- `get_release`: the place of the release with that tag in the list that the server sends; `ok none` is the ValueError.
common.py:21-48 (prepare-release), 19-46 (upload-assets). -/
def getRelease (env : Nat → Answer) (tag : T) (rs : List (Rel T N B)) (calls : Nat) : Except Halt (Option Nat) :=
  match env calls with
  | .lost => .error .raised
  | .late => .error .raised
  | .garbled => .ok none
  | .ok => .ok ((rs.take 30).findIdx? (fun r => decide (r.tag = tag)))

/-- `main` of upload_assets.py: how it ends, and the releases then; upload_assets.py:149-187 -/
def uploadMain (o : Options) (sha : B → D) (env : Nat → Answer) (tag : T) (files : List (N × B)) (rs : List (Rel T N B)) :
    Halt × List (Rel T N B) :=
  match getRelease env tag rs 0 with
  | .error e => (e, rs)
  | .ok none => (.exit (-1), rs)
  | .ok (some i) =>
    match rs[i]? with
    | none => (.raised, rs)
    | some r =>
      match handleAll o sha env r.assets files ⟨r.assets, 1⟩ with
      | (.error e, w) => (e, rs.set i { r with assets := w.assets })
      | (.ok _, w) => (.exit 0, rs.set i { r with assets := w.assets })

/-- `create_release`: a draft without assets; create_release.py:24-53 -/
def createRelease (env : Nat → Answer) (tag : T) (rs : List (Rel T N B)) (calls : Nat) : Except Halt Unit × List (Rel T N B) :=
  match env calls with
  | .lost => (.error .raised, rs)
  | .late => (.error .raised, ⟨tag, []⟩ :: rs)
  | _ => (.ok (), ⟨tag, []⟩ :: rs)

/-- `delete_release`; create_release.py:56-75 -/
def deleteRelease (env : Nat → Answer) (i : Nat) (rs : List (Rel T N B)) (calls : Nat) : Except Halt Unit × List (Rel T N B) :=
  match env calls with
  | .lost => (.error .raised, rs)
  | .late => (.error .raised, rs.eraseIdx i)
  | _ => (.ok (), rs.eraseIdx i)

/-- the sleeping time before attempt `k + 2`, in milliseconds: 10, doubled each time, at most `max_delay`; retry.py:47-48, 73-78,
common.py:51-52 -/
def delay (maxDelay : Nat) : Nat → Nat
  | 0 => 10
  | k + 1 => min (delay maxDelay k * 2) maxDelay

/-- `verify_release`: attempt `k`, `clock k` being what `time.monotonic()` says after it and the sleep that follows it, in
milliseconds; `clock 0` is the start, and the deadline is 2 seconds later. When it has passed, AssertionError is raised (`error` is
true; the `else` of the loop is never reached). The result says how it ends and how many attempts were made, `none` that it goes
on after `fuel` attempts. common.py:51-60, retry.py:30-44, 73-78 -/
def verifyRelease (env : Nat → Answer) (clock : Nat → Nat) (tag : T) (rs : List (Rel T N B)) (calls : Nat) :
    Nat → Nat → Option (Except Halt Unit × Nat)
  | 0, _ => none
  | fuel + 1, k =>
    match getRelease env tag rs (calls + k) with
    | .error e => some (.error e, k + 1)
    | .ok (some _) => some (.ok (), k + 1)
    | .ok none => if clock 0 + 2000 ≤ clock (k + 1) then some (.error .raised, k + 1)
      else verifyRelease env clock tag rs calls fuel (k + 1)

/-- the options `--force` and `--ignore`; create_release.py:90-95 -/
structure ReleaseOptions where
  force : Bool
  ignore : Bool

/-- `create_release(...)` and then `verify_release(...)`: how the program ends, and the releases then; create_release.py:108-109,
114-115. `none`: `verify_release` goes on after `fuel` attempts. -/
def createAndVerify (env : Nat → Answer) (clock : Nat → Nat) (fuel : Nat) (tag : T) (rs : List (Rel T N B)) (calls : Nat) :
    Option (Halt × List (Rel T N B)) :=
  match createRelease env tag rs calls with
  | (.error e, rs) => some (e, rs)
  | (.ok _, rs) =>
    match verifyRelease env clock tag rs (calls + 1) fuel 0 with
    | none => none
    | some (.error e, _) => some (e, rs)
    | some (.ok _, _) => some (.exit 0, rs)

/-- `main` of create_release.py; create_release.py:104-121 -/
def prepareMain (o : ReleaseOptions) (env : Nat → Answer) (clock : Nat → Nat) (fuel : Nat) (tag : T) (rs : List (Rel T N B)) :
    Option (Halt × List (Rel T N B)) :=
  match getRelease env tag rs 0 with
  | .error e => some (e, rs)
  | .ok none => createAndVerify env clock fuel tag rs 1
  | .ok (some i) =>
    if o.force then
      match deleteRelease env i rs 1 with
      | (.error e, rs) => some (e, rs)
      | (.ok _, rs) => createAndVerify env clock fuel tag rs 2
    else if o.ignore then some (.exit 0, rs)
    else some (.exit (-1), rs)

end Releases
end Verif.Release
