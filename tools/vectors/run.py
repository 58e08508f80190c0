#!/usr/bin/env python3
"""Validation of the model: run it with real primitives, compare the fingerprints with those of
/repo/mnemonikey_test.go, and let GnuPG import and use what it encodes. A test, not a proof."""
import os, re, shutil, subprocess, sys, tempfile

here = os.path.dirname(os.path.abspath(__file__))
lean = os.path.join(here, "..", "..", "lean")
work = tempfile.mkdtemp(prefix="vec")
shutil.copy(os.path.join(here, "Oracle.lean.txt"), os.path.join(work, "Oracle.lean"))
subprocess.run(["gcc", "-O2", "-o", work + "/argon2id", here + "/argon2id.c"], check=True)
env = dict(os.environ, VECDIR=work, ARGON2ID=work + "/argon2id", PRIMITIVES=here + "/primitives.py")
bad = []


def check(what, ok):
    print(("ok   " if ok else "FAIL ") + what, flush=True)
    if not ok:
        bad.append(what)


kat = subprocess.check_output([work + "/argon2id", b"password".hex(), b"somesalt".hex(), "2", "65536", "1", "32"])
check("Argon2id known answer", kat.strip() == b"09316115d5cf24ed5a15a31a3ba326e5cf32edc24702987c02b6566f61913cf7")
out = subprocess.run(["lake", "env", "lean", "--run", work + "/Oracle.lean"], cwd=lean, env=env,
                     stdout=subprocess.PIPE, text=True, check=True).stdout
got = dict(l.split(" ", 1) for l in out.splitlines())
FPR, ENC, ENC1 = ("149EE476771DBD4E19D1FB0FC1A9CE93575CA7FA", "C41193904F9CAE4D48E2849D14CF1F4A2D4B2A41",
                  "DE6EA42E75B134FFD28E5C9AD2001406AECE41EA")
check("master key fingerprint (mnemonikey_test.go:73)", got["fpr"].upper() == FPR)
check("encryption subkey fingerprint (mnemonikey_test.go:74)", got["enc"].upper() == ENC)
check("encryption subkey 1 fingerprint (mnemonikey_test.go:162)", got["enc1"].upper() == ENC1)
check("encrypted phrase recovers the key", got["recovered"].upper() == FPR + " WORDS 14 16")
check("checksum of hey (README.md:835)", got["hey"] == "16")


def gpg(home, *args, data=None, fail=False):
    os.makedirs(home, mode=0o700, exist_ok=True)
    r = subprocess.run(["gpg", "--homedir", home, "--batch", "--no-tty", "--yes", "--trust-model", "always",
                        "--pinentry-mode", "loopback", *args], input=data, stdout=subprocess.PIPE,
                       stderr=subprocess.PIPE)
    if r.returncode and not fail:
        print(r.stderr.decode())
        raise SystemExit("gpg failed: " + " ".join(args))
    return r.stdout


def use(name, keys, fprs, expires, passphrase=None, sign=True, decrypt=True):
    home = os.path.join(work, name)
    pw = ["--passphrase", passphrase] if passphrase else []
    gpg(home, *pw, "--import", os.path.join(work, name + ".pgp"))
    colons = gpg(home, "--with-colons", "-K").decode()
    check(name + ": fingerprints", all(f in colons for f in fprs))
    check(name + ": user id", "username <user@domain.com>" in colons)
    sec = [l.split(":") for l in colons.splitlines() if re.match("sec|ssb", l)]
    check(name + ": capabilities", [k[11].strip("CESA") for k in sorted(sec, key=lambda k: k[0])][0] == "c"
          and sorted(k[11] for k in sec if k[0] == "ssb") == keys)
    check(name + ": creation", all(k[5] == "1673800000" for k in sec))
    check(name + ": expiry", all(k[6] == expires for k in sec))
    sigs = gpg(home, "--with-colons", "--check-sigs").decode()
    marks = [l.split(":")[1] for l in sigs.splitlines() if l.startswith("sig")]
    check(name + ": signatures", len(marks) == len(sec) and all(m == "!" for m in marks))
    if sign:
        s = gpg(home, *pw, "--sign", data=b"hello")
        gpg(home, "--verify", data=s)
        check(name + ": signs", True)
    if decrypt:
        c = gpg(home, "-e", "-r", fprs[0], data=b"hello")
        check(name + ": decrypts", gpg(home, *pw, "-d", data=c) == b"hello")
    if passphrase:
        subprocess.run(["gpgconf", "--homedir", home, "--kill", "gpg-agent"])
        check(name + ": wrong passphrase", gpg(home, "--passphrase", "wrong", "-d", data=c, fail=True) != b"hello")
    subprocess.run(["gpgconf", "--homedir", home, "--kill", "all"])


use("plain", ["e", "s"], [FPR, ENC], "")


def dearmor(text):
    path = os.path.join(work, "text")
    open(path, "wb").write(text)
    return subprocess.run(["lake", "env", "lean", "--run", work + "/Oracle.lean", path], cwd=lean, env=env,
                          stdout=subprocess.PIPE, text=True, check=True).stdout.split()[1]


def packets_of(b):
    """Tags and bodies, in any form of RFC 4880 4.2"""
    i, out = 0, []
    while i < len(b):
        h = b[i]
        i += 1
        if h < 192:
            size = 1 << (h & 3)
            assert size < 8
            n = int.from_bytes(b[i:i + size], "big")
            i += size
            out.append((h >> 2 & 15, b[i:i + n]))
            i += n
            continue
        body = b""
        while True:
            n, i, more = b[i], i + 1, False
            if n == 255:
                n, i = int.from_bytes(b[i:i + 4], "big"), i + 4
            elif n >= 224:
                n, more = 1 << (n & 31), True
            elif n >= 192:
                n, i = (n - 192) * 256 + b[i] + 192, i + 1
            body += b[i:i + n]
            i += n
            if not more:
                break
        out.append((h & 63, body))
    return out


# What other programs do with the keys: GnuPG decrypts and verifies what Spec/Use.lean makes, and
# Spec/Use.lean decrypts what GnuPG makes
home = os.path.join(work, "plain")
for n in ("5", "13", "197"):
    check("message, padding " + n + ": the specification decrypts it", got["message" + n] == "true")
    check("message, padding " + n + ": GnuPG decrypts it",
          gpg(home, "-d", data=open(work + "/message" + n, "rb").read()) == b"hello")
open(work + "/data", "wb").write(b"hello")
status = gpg(home, "--status-fd", "1", "--verify", work + "/signature", work + "/data").decode()
check("signature: GnuPG verifies it", "VALIDSIG" in status and "1673900000" in status)
open(work + "/data", "wb").write(b"hullo")
status = gpg(home, "--status-fd", "1", "--verify", work + "/signature", work + "/data", fail=True).decode()
check("signature: and not over other data", "BADSIG" in status)
secret = b"attack at dawn" * 9
c = gpg(home, "-e", "-r", ENC + "!", "--cipher-algo", "AES256", "--compress-algo", "none", data=secret)
c = packets_of(c)
check("message of GnuPG: packets", [t for t, _ in c] == [1, 18])
open(work + "/message", "wb").write(b"".join(
    bytes([192 + t, 255]) + len(x).to_bytes(4, "big") + x for t, x in c))
data = subprocess.run(["lake", "env", "lean", "--run", work + "/Oracle.lean", "decrypt", home + ".pgp", work + "/message"],
                      cwd=lean, env=env, stdout=subprocess.PIPE, text=True, check=True).stdout.split()[1]
check("message of GnuPG: the specification decrypts it",
      data != "nothing" and packets_of(bytes.fromhex(data))[0][1].endswith(secret))

# ASCII armor: GnuPG reads the instance of the contract, and the reader of the specification
# reads the armor of GnuPG
home = os.path.join(work, "plain")
packets = open(home + ".pgp", "rb").read()
asc = open(home + ".asc", "rb").read()
check("armor: GnuPG reads it", gpg(home, "--dearmor", data=asc) == packets)
check("armor: GnuPG reads it between line feeds", gpg(home, "--dearmor", data=b"\n\n" + asc + b"\n\n") == packets)
fresh = os.path.join(work, "fresh")
parts = []
for n in range(0, asc.index(b"-----END"), 97):
    part = fresh + str(n)
    os.makedirs(part, mode=0o700)
    parts.append(subprocess.run(["gpg", "--homedir", part, "--batch", "--import"], input=asc[:n],
                                stderr=subprocess.DEVNULL).returncode)
    subprocess.run(["gpgconf", "--homedir", part, "--kill", "all"])
# it may all the same keep the packets that came before the cut
check("armor: GnuPG reports an error for every part", all(parts))
gpg(fresh, "--import", data=b"\n" + asc + b"\n\n")
check("armor: GnuPG imports it", FPR in gpg(fresh, "--with-colons", "-K").decode())
subprocess.run(["gpgconf", "--homedir", fresh, "--kill", "all"])
other = gpg(home, "--armor", "--export-secret-keys")
check("armor: the specification reads GnuPG's", dearmor(other) == gpg(home, "--export-secret-keys").hex())
check("armor: the specification reads the instance", dearmor(b"\n" + asc + b"\n") == packets.hex())
check("armor: nothing from a part", all(dearmor(asc[:n]) == "nothing" for n in (0, 100, len(asc) - 36, len(asc) - 1)))
check("armor: nothing from a damaged text", dearmor(asc.replace(b"l", b"m", 1)) == "nothing")
use("all", ["a", "e", "s"], [FPR, ENC], str(1673800000 + 3600 * 24 * 365 * 50))
# GnuPG computes with 32-bit times: the sum wraps, and the key counts as long expired
use("century", ["a", "e", "s"], [FPR, ENC], str((1673800000 + 3600 * 24 * 365 * 100) % 2**32),
    sign=False, decrypt=False)
use("subkeys", ["a", "e", "s"], [FPR, ENC1], "")
use("protected", ["e", "s"], [FPR, ENC], "", passphrase="secret pw")
# a keyring into which the outputs of several runs are imported
for order in (["plain", "subkeys"], ["subkeys", "plain", "subkeys"]):
    ring = os.path.join(work, "ring" + str(len(order)))
    for name in order:
        gpg(ring, "--import", os.path.join(work, name + ".pgp"))
    colons = gpg(ring, "--with-colons", "-K").decode().splitlines()
    sec = [l.split(":") for l in colons if re.match("sec|ssb", l)]
    fprs = [l.split(":")[9] for l in colons if l.startswith("fpr")]
    check("keyring: keys after " + " ".join(order), sorted(k[11] for k in sec if k[0] == "ssb") == ["a", "e", "e", "s"]
          and fprs[0] == FPR and {ENC, ENC1} < set(fprs) and all(k[14] in ("+", "") for k in sec))
    subprocess.run(["gpgconf", "--homedir", ring, "--kill", "all"])
shutil.rmtree(work)
sys.exit(1 if bad else 0)
