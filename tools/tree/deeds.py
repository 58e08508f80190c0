"""Compares the calls of Model/Cli/Saving.lean by which processes act on files with this machine (Linux): random trees and
sequences of calls by several users. Needs root. Links that fs.protected_hardlinks forbids are left out; the other settings of
this kind must be 0."""
import errno, json, os, random, shutil, stat, subprocess, sys, tempfile

here = os.path.dirname(os.path.abspath(__file__))
lean = os.path.join(here, "..", "..", "lean")
work = tempfile.mkdtemp()
rng = random.Random(int(sys.argv[1]) if len(sys.argv) > 1 else 1)
NAMES = ["a", "b", "c", "d", "e"]
USERS, GROUPS = [1000, 1001, 1002], [100, 200]


def mode():
    return rng.choice([0o755, 0o777, 0o777, 0o700, 0o775, rng.randrange(0o1000)])


def path():
    parts = [rng.choice(NAMES[:3] + NAMES + ["..", "."]) for _ in range(rng.randrange(0, 3))] + [rng.choice(NAMES)]
    return ("/" if rng.random() < 0.5 else "") + "/".join(parts)


def tree():
    nodes = [["d", 0, 0, 0o777, {".": 0, "..": 0}]]
    for _ in range(rng.randrange(4, 14)):
        d = rng.choice([j for j, n in enumerate(nodes) if n[0] == "d"])
        free = [n for n in NAMES if n not in nodes[d][4]]
        if not free:
            continue
        kind = rng.choice("dddffffls")
        i = len(nodes)
        payload = {".": i, "..": d} if kind == "d" else path() if kind == "l" else "text%d" % i if kind == "f" else ""
        m = mode() if kind != "l" else 0o777
        if kind == "d":
            m |= rng.choice([0, 0, 0o1000, 0o1000, 0o2000])
        nodes.append([kind, rng.choice(USERS), rng.choice(GROUPS), m, payload])
        nodes[d][4][rng.choice(free)] = i
    return nodes


def build(nodes, base):
    paths = {0: base}
    todo = [0]
    while todo:
        d = todo.pop()
        for name, i in nodes[d][4].items():
            if name in (".", ".."):
                continue
            p = paths[i] = os.path.join(paths[d], name)
            kind, payload = nodes[i][0], nodes[i][4]
            if kind == "d":
                os.mkdir(p)
                todo.append(i)
            elif kind == "f":
                open(p, "w").write(payload)
            elif kind == "l":
                os.symlink(payload, p)
            else:
                os.mknod(p, stat.S_IFCHR | 0o600, os.makedev(1, 3))
    for i, p in paths.items():
        os.chown(p, nodes[i][1], nodes[i][2], follow_symlinks=False)
        if nodes[i][0] != "l":
            os.chmod(p, nodes[i][3])
    return paths


def dump(p, known):
    st = os.lstat(p)
    if st.st_ino in known:
        return "#%d" % known.index(st.st_ino)
    known.append(st.st_ino)
    head = "%d %d %d" % (st.st_uid, st.st_gid, st.st_mode & 0o7777)
    if stat.S_ISREG(st.st_mode):
        return "[f %s %s]" % (head, open(p, "rb").read().hex())
    if stat.S_ISLNK(st.st_mode):
        return "[l %s %s]" % (head, os.readlink(p).encode().hex())
    if stat.S_ISCHR(st.st_mode):
        return "[s %s]" % head
    out = "[d " + head
    for n in NAMES:
        if os.path.lexists(os.path.join(p, n)):
            out += " %s=%s" % (n.encode().hex(), dump(os.path.join(p, n), known))
    return out + "]"


def isdir(p):
    try:
        return stat.S_ISDIR(os.lstat(p).st_mode)
    except OSError:
        return None


def parent(p):
    try:
        return os.stat(os.path.dirname(p) or ".").st_ino
    except OSError:
        return None


def kernel(nodes, creds):
    """Makes calls and returns them with the tree afterwards"""
    base = tempfile.mkdtemp(dir=work)
    paths = build(nodes, base)
    number = {os.lstat(p).st_ino: i for i, p in paths.items()}
    fresh = len(nodes)
    r, w = os.pipe()
    pid = os.fork()
    if pid == 0:
        done, fds, reads = [], {}, set()
        kept = []
        dirs = {i: os.open(p, os.O_RDONLY) for i, p in paths.items() if nodes[i][0] == "d"}
        os.chroot(base)

        def made(ino):
            nonlocal fresh
            number[ino] = fresh
            fresh += 1

        def everything():
            return {os.lstat(os.path.join(d, n)).st_ino for d, ds, fs in os.walk("/") for n in ds + fs}

        try:
            for _ in range(14):
                user, group, groups, cwd, umask = rng.choice(creds)
                os.fchdir(dirs[cwd])
                os.umask(umask)
                os.setgroups(groups)
                os.setegid(group)
                p, q, m = path(), path(), mode()
                kind = rng.choice(["write", "read", "put", "symlink", "link", "mkdir", "unlink", "unlink", "rename", "rename", "chmod"])
                if kind == "rename" and isdir(p) and (isdir(q) is not None or parent(p) != parent(q)):
                    continue
                if kind == "put" and not fds:
                    continue
                call = [kind, p]
                before = everything()
                os.seteuid(user)
                worked = "yes"
                try:
                    if kind == "write":
                        call.append(m)
                        fd = os.open(p, os.O_WRONLY | os.O_CREAT | os.O_TRUNC, m)
                        ino = os.fstat(fd).st_ino
                        if ino not in before and ino not in fds:
                            made(ino)
                        fds[ino] = fd
                    elif kind == "read":
                        fd = os.open(p, os.O_RDONLY)
                        kept.append(fd)
                        reads.add(os.fstat(fd).st_ino)
                    elif kind == "put":
                        ino = rng.choice(list(fds))
                        data = "put%d" % rng.randrange(1000)
                        call = [kind, number[ino], data]
                        os.pwrite(fds[ino], data.encode(), 0)
                        if stat.S_ISREG(os.fstat(fds[ino]).st_mode):
                            os.ftruncate(fds[ino], len(data))
                    elif kind == "symlink":
                        call = [kind, q, p]
                        os.symlink(q, p)
                        os.seteuid(0)
                        made(os.lstat(p).st_ino)
                    elif kind == "link":
                        call = [kind, p, q]
                        os.link(p, q, follow_symlinks=False)
                    elif kind == "mkdir":
                        call.append(m)
                        os.mkdir(p, m)
                        os.seteuid(0)
                        made(os.lstat(p).st_ino)
                    elif kind == "unlink":
                        os.unlink(p)
                    elif kind == "rename":
                        call = [kind, p, q]
                        os.rename(p, q)
                    elif kind == "chmod":
                        call.append(m)
                        os.chmod(p, m)
                except OSError as e:
                    worked = "no"
                    if kind == "link" and e.errno == errno.EPERM:
                        worked = "left out"
                os.seteuid(0)
                if worked == "left out":
                    continue
                done.append([[user, group, groups, cwd, umask], call, worked])
            known = []
            out = dump("/", known)
            rs = "[" + ", ".join(str(k) for k, i in enumerate(known) if i in reads) + "]"
            os.write(w, json.dumps([done, out + " " + rs]).encode())
        except Exception as e:
            os.write(2, repr(e).encode())
        finally:
            os._exit(0)
    os.close(w)
    data = b""
    while True:
        b = os.read(r, 65536)
        if not b:
            break
        data += b
    os.close(r)
    os.waitpid(pid, 0)
    shutil.rmtree(base)
    rng.random()
    return json.loads(data)


cases, expected, tally = [], [], {}
with open(work + "/in", "w") as f:
    for k in range(1500):
        rng.seed("%s %d" % (sys.argv[1] if len(sys.argv) > 1 else 1, k))
        nodes = tree()
        dirs = [i for i, n in enumerate(nodes) if n[0] == "d"]
        creds = [(u, rng.choice(GROUPS), rng.sample(GROUPS, rng.randrange(2)), rng.choice(dirs),
                  rng.choice([0o022, 0o077, 0, rng.randrange(0o1000)])) for u in USERS + rng.choice([[], [], [0]])]
        done, out = kernel(nodes, creds)
        cases.append((nodes, done))
        expected.append(out)
        f.write("T\n")
        for kind, owner, g, m, payload in nodes:
            p = ",".join("%s=%d" % (n.encode().hex(), i) for n, i in payload.items()) if kind == "d" else payload.encode().hex()
            f.write("N %s %d %d %d %s\n" % (kind, owner, g, m, p))
        for (user, group, groups, cwd, umask), call, worked in done:
            tally[call[0], worked] = tally.get((call[0], worked), 0) + 1
            f.write("C %d %d %s %d %d\n" % (user, group, ",".join(map(str, groups)), cwd, umask))
            f.write(" ".join([call[0]] + [str(x) if isinstance(x, int) else x.encode().hex() for x in call[1:]]) + "\n")
        f.write("D " + " ".join(n.encode().hex() for n in NAMES) + "\n")
shutil.copy(here + "/Deeds.lean.txt", work + "/Deeds.lean")
out = subprocess.run(["lake", "env", "lean", "--run", work + "/Deeds.lean", work + "/in"], cwd=lean,
                     stdout=subprocess.PIPE, text=True, check=True).stdout.splitlines()
bad = 0
for (nodes, done), k, o in zip(cases, expected, out):
    if o != k:
        bad += 1
        if bad < 4:
            print("differs:", nodes, *done, "Linux " + k, "Lean  " + o, sep="\n  ")
print("%d sequences, %d differ" % (len(cases), bad), tally)
shutil.rmtree(work)
sys.exit(bad != 0 or len(cases) != len(out))
