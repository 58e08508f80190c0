"""Cryptographic primitives for the validation run of the model. Written from their specifications:
Ed25519 (RFC 8032), X25519 (RFC 7748), HKDF-Expand (RFC 5869); hashes from hashlib, AES from the
openssl command, Argon2id from argon2id.c. Called by Oracle.lean.txt:
primitives.py <name> <file with one hexadecimal argument per line>; prints hexadecimal."""
import hashlib, hmac, os, subprocess, sys

p = 2**255 - 19
L = 2**252 + 27742317777372353535851937790883648493
d = (-121665 * pow(121666, p - 2, p)) % p


def add(P, Q):
    x1, y1 = P
    x2, y2 = Q
    k = d * x1 * x2 * y1 * y2 % p
    return ((x1 * y2 + x2 * y1) * pow(1 + k, p - 2, p) % p,
            (y1 * y2 + x1 * x2) * pow(1 - k, p - 2, p) % p)


def mul(n, P):
    R = (0, 1)
    while n:
        if n & 1:
            R = add(R, P)
        P = add(P, P)
        n >>= 1
    return R


def base():
    y = 4 * pow(5, p - 2, p) % p
    x2 = (y * y - 1) * pow(d * y * y + 1, p - 2, p) % p
    x = pow(x2, (p + 3) // 8, p)
    if (x * x - x2) % p:
        x = x * pow(2, (p - 1) // 4, p) % p
    return (p - x if x & 1 else x, y)


B = base()


def clamp(h):
    return (int.from_bytes(h[:32], "little") & ((1 << 254) - 8)) | 1 << 254


def point(P):
    return (P[1] | ((P[0] & 1) << 255)).to_bytes(32, "little")


def ed25519pub(seed):
    return point(mul(clamp(hashlib.sha512(seed).digest()), B))


def ed25519sign(key, msg):
    h = hashlib.sha512(key[:32]).digest()
    a = clamp(h)
    r = int.from_bytes(hashlib.sha512(h[32:] + msg).digest(), "little") % L
    R = point(mul(r, B))
    k = int.from_bytes(hashlib.sha512(R + key[32:] + msg).digest(), "little") % L
    return R + ((r + k * a) % L).to_bytes(32, "little")


def x25519base(scalar):
    y = mul(clamp(scalar), B)[1]
    return ((1 + y) * pow(1 - y, p - 2, p) % p).to_bytes(32, "little")


def x25519(scalar, u):
    """RFC 7748 5"""
    k, x1 = clamp(scalar), int.from_bytes(u, "little") % 2**255
    x2, z2, x3, z3, swap = 1, 0, x1, 1, 0
    for t in range(254, -1, -1):
        bit = k >> t & 1
        if swap ^ bit:
            x2, x3, z2, z3 = x3, x2, z3, z2
        swap = bit
        a, b, c, d = x2 + z2, x2 - z2, x3 + z3, x3 - z3
        aa, bb, da, cb = a * a, b * b, d * a, c * b
        e = aa - bb
        x3, z3 = (da + cb)**2 % p, x1 * (da - cb)**2 % p
        x2, z2 = aa * bb % p, e * (aa + 121665 * e) % p
    if swap:
        x2, x3, z2, z3 = x3, x2, z3, z2
    return (x2 * pow(z2, p - 2, p) % p).to_bytes(32, "little")


def hkdf(key, info, n):
    out, t, i = b"", b"", 1
    while len(out) < int.from_bytes(n, "big"):
        t = hmac.new(key, t + info + bytes([i]), hashlib.sha256).digest()
        out += t
        i += 1
    return out[:int.from_bytes(n, "big")]


def aes(direction):
    def run(key, block):
        cipher = "-aes-%d-ecb" % (8 * len(key))
        return subprocess.run(["openssl", "enc", direction, cipher, "-nopad", "-K", key.hex()],
                              input=block, stdout=subprocess.PIPE, check=True).stdout
    return run


def argon2id(pw, salt, t, m, lanes, n):
    num = lambda b: str(int.from_bytes(b, "big"))
    exe = os.environ["ARGON2ID"]
    out = subprocess.check_output([exe, pw.hex(), salt.hex(), num(t), num(m), num(lanes), num(n)])
    return bytes.fromhex(out.decode().strip())


TABLE = {
    "argon2id": argon2id, "aesEnc": aes("-e"), "aesDec": aes("-d"), "hkdf": hkdf,
    "ed25519pub": ed25519pub, "ed25519sign": ed25519sign, "x25519base": x25519base,
    "x25519": x25519,
    "sha1": lambda m: hashlib.sha1(m).digest(), "sha256": lambda m: hashlib.sha256(m).digest(),
    "sha384": lambda m: hashlib.sha384(m).digest(), "sha512": lambda m: hashlib.sha512(m).digest(),
}

if __name__ == "__main__":
    args = [bytes.fromhex(l.strip()) for l in open(sys.argv[2])]
    print(TABLE[sys.argv[1]](*args).hex())
