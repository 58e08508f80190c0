# Keys typed in raw mode and not read are there when the terminal has left it, with a carriage return (Console.behindWords)
import os,pty,tty,termios,time
m,s=pty.openpty()
old=termios.tcgetattr(s)
tty.setraw(s,termios.TCSANOW)
os.write(m,b"x"); print(os.read(s,1))
os.write(m,b"pw\r"); time.sleep(.1)
termios.tcsetattr(s,termios.TCSANOW,old)
n=termios.tcgetattr(s); n[3]=(n[3]&~termios.ECHO)|termios.ICANON|termios.ISIG; n[0]|=termios.ICRNL
termios.tcsetattr(s,termios.TCSANOW,n)
os.write(m,b"pw\r"); time.sleep(.1)
print(os.read(s,100)); print(os.read(s,100))
