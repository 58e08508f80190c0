"""Compares Spec/Keyboard.lean with the terminal driver of this machine (Linux): random keys on a pseudo terminal."""
import os, pty, random, select, shutil, subprocess, sys, tempfile, termios

here = os.path.dirname(os.path.abspath(__file__))
lean = os.path.join(here, "..", "..", "lean")
work = tempfile.mkdtemp()
rng = random.Random(int(sys.argv[1]) if len(sys.argv) > 1 else 1)
KEY = {"e": b"\x7f", "k": b"\x15", "n": b"\r", "d": b"\x04"}


def sequence(ascii_only):
    out = []
    for _ in range(rng.randrange(1, 25)):
        x = rng.random()
        if x < 0.62:
            c = chr(rng.randrange(0x20, 0x7F)) if ascii_only or rng.random() < 0.5 else rng.choice("äöß€ŝ字𝄞")
            out += ["c%02x" % b for b in c.encode()]
        else:
            out.append("e" if x < 0.85 else "k" if x < 0.88 else "n" if x < 0.95 else "d")
    return out


def drained(fd, wait=0.0):
    data = b""
    while select.select([fd], [], [], wait)[0]:
        data += os.read(fd, 4096)
    return data


def kernel(seq):
    """What is echoed, and what a reader of single bytes reads, which reads whenever something is there"""
    m, s = pty.openpty()
    a = termios.tcgetattr(s)
    a[0] |= termios.ICRNL | 0o40000  # IUTF8
    a[3] |= termios.ICANON | termios.ECHO | termios.ECHOE | termios.ECHOK | 0o4000  # ECHOKE
    termios.tcsetattr(s, termios.TCSANOW, a)
    os.set_blocking(s, False)
    echo, read = b"", ""
    for k in seq:
        os.write(m, KEY[k] if k in KEY else bytes([int(k[1:], 16)]))
        echo += drained(m)
        while k in "nd":
            try:
                b = os.read(s, 1)
            except BlockingIOError:
                break
            read += b.hex() or "--"
    echo += drained(m, 0.03)
    os.close(m), os.close(s)
    return echo.hex(), read


seqs = [sequence(i % 2 == 0) for i in range(2000)]
with open(work + "/keys", "w") as f:
    for q in seqs:
        f.write(" ".join(q) + "\n")
shutil.copy(here + "/Oracle.lean.txt", work + "/Oracle.lean")
out = subprocess.run(["lake", "env", "lean", "--run", work + "/Oracle.lean", work + "/keys"], cwd=lean,
                     stdout=subprocess.PIPE, text=True, check=True).stdout.splitlines()
bad = 0
for i, (q, o) in enumerate(zip(seqs, out)):
    echo, read, pw = o.split("|")
    e, r = kernel(q)
    if (i % 2 == 0 and e != echo) or r != read:
        bad += 1
        if bad < 5:
            print("differs:", " ".join(q), "\n  driver", e, r, "\n  Lean  ", echo, read)
print("%d sequences, %d differ" % (len(seqs), bad))
shutil.rmtree(work)
sys.exit(bad != 0)
